import Verif.Spec.Relaid
import Verif.Spec.Grammar

/-!
Trees that agree up to lines, and blocks that make the same declarations.
-/

namespace Verif.Spec

open Verif

/-- The two domains are one domain, with lines in place of marks; `Λ` relates the two lines of each mark. -/
def Corresponds (Λ : Nat → Nat → Prop) (d d' : DomainAST) : Prop :=
  ∃ e line line', d = mvDomain id line e ∧ d' = mvDomain id line' e ∧ ∀ k, Λ (line k) (line' k)

def CorrespondsP (Λ : Nat → Nat → Prop) (p p' : ProblemAST) : Prop :=
  ∃ e line line', p = mvProblem id line e ∧ p' = mvProblem id line' e ∧ ∀ k, Λ (line k) (line' k)

/-- What a block declares. -/
inductive Sort_ where
  | predicates | functions | task | method | action | requirements | types | constants
  deriving DecidableEq

def DBlock.sort : DBlock → Sort_
  | .predicates _ => .predicates
  | .functions _ => .functions
  | .task _ => .task
  | .method _ => .method
  | .action _ => .action
  | .requirements _ => .requirements
  | .types _ => .types
  | .constants _ => .constants

/-- A block with several declarations, as two blocks. -/
inductive Split : DBlock → DBlock → DBlock → Prop
  | predicates {a b} : Split (.predicates (a ++ b)) (.predicates a) (.predicates b)
  | functions {a b} : Split (.functions (a ++ b)) (.functions a) (.functions b)
  | requirements {a b} : Split (.requirements (a ++ b)) (.requirements a) (.requirements b)
  | types {a b} : Split (.types (a ++ b)) (.types a) (.types b)
  | constants {a b} : Split (.constants (a ++ b)) (.constants a) (.constants b)

/-- A block without declarations. -/
inductive Vacuous : DBlock → Prop
  | predicates : Vacuous (.predicates [])
  | functions : Vacuous (.functions [])
  | requirements : Vacuous (.requirements [])
  | types : Vacuous (.types [])
  | constants : Vacuous (.constants [])

/-- The blocks are split, merged, dropped if they are empty, and exchanged with neighbours that declare other things. -/
inductive Regrouped : List DBlock → List DBlock → Prop
  | refl {bs} : Regrouped bs bs
  | symm {bs bs'} : Regrouped bs bs' → Regrouped bs' bs
  | trans {bs bs' bs''} : Regrouped bs bs' → Regrouped bs' bs'' → Regrouped bs bs''
  | cons {b bs bs'} : Regrouped bs bs' → Regrouped (b :: bs) (b :: bs')
  | swap {b c bs} : b.sort ≠ c.sort → Regrouped (b :: c :: bs) (c :: b :: bs)
  | split {b c c' bs} : Split b c c' → Regrouped (b :: bs) (c :: c' :: bs)
  | empty {b bs} : Vacuous b → Regrouped (b :: bs) bs

/-- What a block of a problem contains. -/
inductive SortP where
  | requirements | objects | htn | goal | init
  deriving DecidableEq

def PBlock.sort : PBlock → SortP
  | .requirements _ => .requirements
  | .objects _ => .objects
  | .htn _ => .htn
  | .goal _ => .goal
  | .init _ => .init

/-- The first block is overridden by the second one. -/
inductive Overridden : PBlock → PBlock → Prop
  | htn {a b} : Overridden (.htn a) (.htn b)
  | goal {a b} : Overridden (.goal a) (.goal b)
  | init {a b} : Overridden (.init a) (.init b)

/-- The same for problems, where also an overridden block may be dropped. -/
inductive RegroupedP : List PBlock → List PBlock → Prop
  | refl {bs} : RegroupedP bs bs
  | symm {bs bs'} : RegroupedP bs bs' → RegroupedP bs' bs
  | trans {bs bs' bs''} : RegroupedP bs bs' → RegroupedP bs' bs'' → RegroupedP bs bs''
  | cons {b bs bs'} : RegroupedP bs bs' → RegroupedP (b :: bs) (b :: bs')
  | swap {b c bs} : b.sort ≠ c.sort → RegroupedP (b :: c :: bs) (c :: b :: bs)
  | splitReqs {a b bs} : RegroupedP (.requirements (a ++ b) :: bs) (.requirements a :: .requirements b :: bs)
  | splitObjs {a b bs} : RegroupedP (.objects (a ++ b) :: bs) (.objects a :: .objects b :: bs)
  | noReqs {bs} : RegroupedP (.requirements [] :: bs) bs
  | noObjs {bs} : RegroupedP (.objects [] :: bs) bs
  | override {b c bs} : Overridden b c → RegroupedP (b :: c :: bs) (c :: bs)

end Verif.Spec
