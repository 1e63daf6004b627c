import Mathlib.Logic.Function.Basic
import Verif.Model.ProblemAnalyzer
import Verif.Proofs.Accept
import Verif.Proofs.RenameGraph
import Verif.Spec.Relaid

/-! The analyses of a syntax tree with other lines and names give the answer with other lines and names. -/

namespace Verif

open Spec

variable {ρ : Name → Name} {φ ψ : Nat → Nat}

/-- A result with other names and lines in its error. -/
def R.mv {α β : Type} (ρ : Name → Name) (φ : Nat → Nat) (h : α → β) : R α → R β
  | .ok a => .ok (h a)
  | .err e => .err (mvErr ρ φ e)
  | .panic x => .panic x
  | .timeout => .timeout

theorem R.mv_bind {α β γ δ : Type} {h : α → γ} {k : β → δ} {x : R α} {f : α → R β} {f' : γ → R δ}
    (hf : ∀ a, f' (h a) = (f a).mv ρ φ k) : (x.mv ρ φ h).bind f' = (x.bind f).mv ρ φ k := by
  cases x with
  | ok a => exact hf a
  | _ => rfl

theorem R.mv_semErr {α β : Type} (h : α → β) (e : SemErr) : (semErr e : R α).mv ρ φ h = semErr (mvSemErr ρ φ e) := rfl

/-! ### Graphs -/

theorem find_mv {α β : Type} (f : α → β) (p : α → Bool) (q : β → Bool) (h : ∀ a, q (f a) = p a) (l : List α) :
    (l.map f).find? q = (l.find? p).map f := by
  induction l with
  | nil => rfl
  | cons a l ih => simp only [List.map_cons, List.find?_cons, h, ih]; split <;> rfl

theorem mem_mv (hρ : Function.Injective ρ) (x : Name) (l : List Name) : ρ x ∈ l.map ρ ↔ x ∈ l :=
  List.mem_map_of_injective hρ

theorem reachAux_mv {α β : Type} [DecidableEq α] [DecidableEq β] {f : α → β} (hf : Function.Injective f) (n : Nat)
    (es : List (α × α)) (v : List α) : reachAux n (es.map (Prod.map f f)) (v.map f) = (reachAux n es v).map f := by
  induction n generalizing es v with
  | zero => rfl
  | succ n ih =>
    rw [reachAux, reachAux, find_mv (Prod.map f f) (fun e => decide (e.1 ∈ v)) _ fun e => by
      simp only [Prod.map, List.mem_map_of_injective hf]]
    cases es.find? fun e => decide (e.1 ∈ v) with
    | none => rfl
    | some e =>
      have hi : Function.Injective (Prod.map f f) := hf.prodMap hf
      simp only [Option.map]
      rw [← List.map_erase hi, ← ih]
      rfl

theorem hasPath_mv (hρ : Function.Injective ρ) (es : List (Name × Name)) (a b : Name) :
    hasPath (es.map (Prod.map ρ ρ)) (ρ a) (ρ b) = hasPath es a b := by
  have := reachAux_mv hρ es.length es [a]
  unfold hasPath reachFrom
  rw [List.length_map, show [ρ a] = [a].map ρ from rfl, this]
  simp [mem_mv hρ]

theorem isAcyclic_mv (hρ : Function.Injective ρ) (es : List (Name × Name)) :
    isAcyclic (es.map (Prod.map ρ ρ)) = isAcyclic es := by
  unfold isAcyclic
  rw [List.all_map]
  congr 1
  funext e
  simp only [Function.comp, Prod.map, hasPath_mv hρ]

/-! ### Types -/

def TypeGraph.mv (ρ : Name → Name) (g : TypeGraph) : TypeGraph := ⟨g.nodes.map ρ, g.edges.map (Prod.map ρ ρ)⟩

theorem typeGraphOf_mv (ts : List Symbol) : typeGraphOf (ts.map (mvSymbol ρ φ)) = (typeGraphOf ts).mv ρ := by
  induction ts with
  | nil => rfl
  | cons t ts ih =>
    obtain ⟨x, l, ty, q⟩ := t
    cases ty <;> simp [typeGraphOf, mvSymbol, ih, TypeGraph.mv]

theorem typeGraph_mv (o : Option (List Symbol)) :
    TypeGraph.new (o.map (List.map (mvSymbol ρ φ))) = (TypeGraph.new o).mv ρ := by
  cases o with
  | none => rfl
  | some ts => exact typeGraphOf_mv ts

variable {g : TypeGraph}

theorem typeVerify_mv (hρ : Function.Injective ρ) : (g.mv ρ).verify = g.verify.mv ρ φ id := by
  unfold TypeGraph.verify TypeGraph.mv
  simp only [isAcyclic_mv hρ]
  split <;> rfl

theorem checkDecls_mv (hρ : Function.Injective ρ) (ps : List Symbol) :
    (g.mv ρ).checkDecls (ps.map (mvSymbol ρ φ)) = (g.checkDecls ps).mv ρ φ id := by
  induction ps with
  | nil => rfl
  | cons p ps ih =>
    obtain ⟨x, l, ty, q⟩ := p
    cases ty with
    | none => simpa [TypeGraph.checkDecls, mvSymbol] using ih
    | some t =>
      have h : ρ t ∈ (g.mv ρ).nodes ↔ t ∈ g.nodes := mem_mv hρ t g.nodes
      simp only [List.map_cons, TypeGraph.checkDecls, mvSymbol, Option.map, h]
      split
      · exact ih
      · cases q <;> rfl

theorem consistent_mv (hρ : Function.Injective ρ) (f e : Option Name) :
    (g.mv ρ).consistent (f.map ρ) (e.map ρ) = g.consistent f e := by
  cases f <;> cases e <;> simp [TypeGraph.consistent, TypeGraph.mv, hasPath_mv hρ, hρ.eq_iff]

theorem findSym_mv (hρ : Function.Injective ρ) (l : List Symbol) (x : Name) :
    findSym (l.map (mvSymbol ρ φ)) (ρ x) = (findSym l x).map (mvSymbol ρ φ) :=
  find_mv _ _ _ (fun s => by simp [mvSymbol, hρ.eq_iff]) l

theorem findParam_mv (hρ : Function.Injective ρ) (l : List Symbol) (x : Name) :
    findParam (l.map (mvSymbol ρ φ)) (ρ x) = (findParam l x).map (mvSymbol ρ φ) := by
  unfold findParam
  rw [← List.map_reverse]
  exact find_mv _ _ _ (fun s => by simp [mvSymbol, hρ.eq_iff]) _

theorem findPred_mv (hρ : Function.Injective ρ) (l : List Predicate) (x : Name) :
    (l.map (mvPredicate ρ φ)).find? (fun d => d.name = ρ x) = (l.find? fun d => d.name = x).map (mvPredicate ρ φ) :=
  find_mv _ _ _ (fun s => by simp [mvPredicate, hρ.eq_iff]) _

theorem findPred_mv' (hρ : Function.Injective ρ) (l : List Predicate) (x : Name) :
    (l.map (mvPredicate ρ φ)).find? (fun d => ρ x = d.name) = (l.find? fun d => x = d.name).map (mvPredicate ρ φ) :=
  find_mv _ _ _ (fun s => by simp [mvPredicate, hρ.eq_iff]) _

theorem findTask_mv (hρ : Function.Injective ρ) (l : List Task) (x : Name) :
    (l.map (mvTask ρ φ)).find? (fun d => d.name = ρ x) = (l.find? fun d => d.name = x).map (mvTask ρ φ) :=
  find_mv _ _ _ (fun s => by simp [mvTask, hρ.eq_iff]) _

theorem findTask_mv' (hρ : Function.Injective ρ) (l : List Task) (x : Name) :
    (l.map (mvTask ρ φ)).find? (fun d => ρ x = d.name) = (l.find? fun d => x = d.name).map (mvTask ρ φ) :=
  find_mv _ _ _ (fun s => by simp [mvTask, hρ.eq_iff]) _

theorem findAction_mv (hρ : Function.Injective ρ) (l : List Action) (x : Name) :
    (l.map (mvAction ρ φ)).find? (fun d => d.name = ρ x) = (l.find? fun d => d.name = x).map (mvAction ρ φ) :=
  find_mv _ _ _ (fun s => by simp [mvAction, hρ.eq_iff]) _

/-! ### Formulas -/

theorem mvFormulas_eq (fs : List Formula) : mvFormulas ρ φ fs = fs.map (mvFormula ρ φ) := by
  induction fs with
  | nil => simp [mvFormulas]
  | cons f fs ih => simp [mvFormulas, ih]

mutual

theorem checkPredDecls_mv (hρ : Function.Injective ρ) (ps : List Predicate) : ∀ f : Formula,
    checkPredDecls (ps.map (mvPredicate ρ φ)) (mvFormula ρ φ f) = (checkPredDecls ps f).mv ρ φ id
  | .empty => by simp [mvFormula, checkPredDecls, R.mv]
  | .atom p => by
    have h : (mvPredicate ρ φ p).name = ρ p.name := rfl
    simp only [mvFormula, checkPredDecls, h, findPred_mv' hρ]
    cases ps.find? fun d => p.name = d.name with
    | none => rfl
    | some d =>
      simp only [Option.map, mvPredicate, List.length_map]
      split <;> rfl
  | .not f => by simpa [mvFormula, checkPredDecls] using checkPredDecls_mv hρ ps f
  | .and fs => by simpa [mvFormula, checkPredDecls] using checkPredDeclsList_mv hρ ps fs
  | .or fs => by simpa [mvFormula, checkPredDecls] using checkPredDeclsList_mv hρ ps fs
  | .xor fs => by simpa [mvFormula, checkPredDecls] using checkPredDeclsList_mv hρ ps fs
  | .imply _ _ => by simp [mvFormula, checkPredDecls, R.mv]
  | .exists_ _ _ => by simp [mvFormula, checkPredDecls, R.mv]
  | .forall_ _ f => by simpa [mvFormula, checkPredDecls] using checkPredDecls_mv hρ ps f
  | .weighted _ f => by simpa [mvFormula, checkPredDecls] using checkPredDecls_mv hρ ps f
  | .equals _ _ => by simp [mvFormula, checkPredDecls, R.mv]

theorem checkPredDeclsList_mv (hρ : Function.Injective ρ) (ps : List Predicate) : ∀ fs : List Formula,
    checkPredDeclsList (ps.map (mvPredicate ρ φ)) (mvFormulas ρ φ fs) = (checkPredDeclsList ps fs).mv ρ φ id
  | [] => by simp [mvFormulas, checkPredDeclsList, R.mv]
  | f :: fs => by
    rw [mvFormulas, checkPredDeclsList, checkPredDeclsList, checkPredDecls_mv hρ ps f]
    exact R.mv_bind fun _ => checkPredDeclsList_mv hρ ps fs

end

mutual

theorem propPreds_mv : ∀ f : Formula, (mvFormula ρ φ f).propPreds = f.propPreds.map (mvPredicate ρ φ)
  | .empty => by simp [mvFormula, Formula.propPreds]
  | .atom p => by simp [mvFormula, Formula.propPreds]
  | .not f => by simpa [mvFormula, Formula.propPreds] using propPreds_mv f
  | .and fs => by simpa [mvFormula, Formula.propPreds] using propPredsList_mv fs
  | .or fs => by simpa [mvFormula, Formula.propPreds] using propPredsList_mv fs
  | .xor fs => by simpa [mvFormula, Formula.propPreds] using propPredsList_mv fs
  | .imply ps qs => by simp [mvFormula, Formula.propPreds, propPredsList_mv ps, propPredsList_mv qs]
  | .exists_ _ f => by simp [mvFormula, Formula.propPreds]
  | .forall_ _ f => by simp [mvFormula, Formula.propPreds]
  | .weighted _ f => by simpa [mvFormula, Formula.propPreds] using propPreds_mv f
  | .equals _ _ => by simp [mvFormula, Formula.propPreds]

theorem propPredsList_mv : ∀ fs : List Formula,
    Formula.propPredsList (mvFormulas ρ φ fs) = (Formula.propPredsList fs).map (mvPredicate ρ φ)
  | [] => by simp [mvFormulas, Formula.propPredsList]
  | f :: fs => by simp [mvFormulas, Formula.propPredsList, propPreds_mv f, propPredsList_mv fs]

end

/-! ### Domains -/

/-- An argument with its type. -/
def mvArg (ρ : Name → Name) (φ : Nat → Nat) (a : Symbol × Option Name) : Symbol × Option Name :=
  (mvSymbol ρ φ a.1, a.2.map ρ)

theorem argTypes_mv (hρ : Function.Injective ρ) (params constants vs : List Symbol) :
    argTypes (params.map (mvSymbol ρ φ)) (constants.map (mvSymbol ρ φ)) (vs.map (mvSymbol ρ φ)) =
      (argTypes params constants vs).mv ρ φ (List.map (mvArg ρ φ)) := by
  induction vs with
  | nil => rfl
  | cons v vs ih =>
    have h : (mvSymbol ρ φ v).name = ρ v.name := rfl
    simp only [List.map_cons, argTypes, h, findParam_mv hρ, findSym_mv hρ, ih]
    cases findParam params v.name with
    | some p => exact R.mv_bind fun _ => rfl
    | none =>
      cases findSym constants v.name with
      | some p => exact R.mv_bind fun _ => rfl
      | none => rfl

theorem checkArgTypes_mv (hρ : Function.Injective ρ) {mk : TypeErr → SemErr}
    (hm : ∀ e, mvSemErr ρ φ (mk e) = mk (mvType ρ φ e)) (fs : List (Symbol × Option Name)) (es : List (Option Name)) :
    checkArgTypes (g.mv ρ) mk (fs.map (mvArg ρ φ)) (es.map (Option.map ρ)) = (checkArgTypes g mk fs es).mv ρ φ id := by
  induction fs generalizing es with
  | nil => rfl
  | cons f fs ih =>
    obtain ⟨v, f⟩ := f
    cases es with
    | nil => rfl
    | cons e es =>
      simp only [List.map_cons, mvArg, checkArgTypes, consistent_mv hρ]
      split
      · exact ih es
      · rw [R.mv_semErr, hm]; rfl

theorem types_mv (l : List Symbol) : (l.map (mvSymbol ρ φ)).map (·.ty) = (l.map (·.ty)).map (Option.map ρ) := by
  simp [mvSymbol, Function.comp_def]

theorem checkAtom_mv (hρ : Function.Injective ρ) (params constants : List Symbol) (ps : List Predicate) (p : Predicate) :
    checkAtom (g.mv ρ) (params.map (mvSymbol ρ φ)) (constants.map (mvSymbol ρ φ)) (ps.map (mvPredicate ρ φ)) (mvPredicate ρ φ p) =
      (checkAtom g params constants ps p).mv ρ φ id := by
  have h : (mvPredicate ρ φ p).name = ρ p.name := rfl
  unfold checkAtom
  rw [h, findPred_mv hρ]
  cases ps.find? fun d => d.name = p.name with
  | none => rfl
  | some d =>
    simp only [Option.map, mvPredicate, argTypes_mv hρ]
    refine R.mv_bind fun found => ?_
    simp only [List.length_map]
    split
    · rfl
    · rw [types_mv, checkArgTypes_mv hρ fun _ => rfl]

theorem checkAtoms_mv (hρ : Function.Injective ρ) (params constants : List Symbol) (ps as : List Predicate) :
    checkAtoms (g.mv ρ) (params.map (mvSymbol ρ φ)) (constants.map (mvSymbol ρ φ)) (ps.map (mvPredicate ρ φ))
      (as.map (mvPredicate ρ φ)) = (checkAtoms g params constants ps as).mv ρ φ id := by
  induction as with
  | nil => rfl
  | cons a as ih =>
    rw [List.map_cons, checkAtoms, checkAtoms, checkAtom_mv hρ, ih]
    exact R.mv_bind fun _ => rfl

theorem checkFormula_mv (hρ : Function.Injective ρ) (params constants : List Symbol) (ps as : List Predicate) :
    checkFormula (g.mv ρ) (params.map (mvSymbol ρ φ)) (constants.map (mvSymbol ρ φ)) (ps.map (mvPredicate ρ φ))
      (as.map (mvPredicate ρ φ)) = (checkFormula g params constants ps as).mv ρ φ id := by
  unfold checkFormula
  rw [checkDecls_mv hρ, checkAtoms_mv hρ]
  exact R.mv_bind fun _ => rfl

theorem taskConsistent_mv (hρ : Function.Injective ρ) (task : Symbol) (terms params constants : List Symbol)
    (tasks : List Task) (actions : List Action) :
    taskConsistent (g.mv ρ) (mvSymbol ρ φ task) (terms.map (mvSymbol ρ φ)) (params.map (mvSymbol ρ φ))
      (constants.map (mvSymbol ρ φ)) (tasks.map (mvTask ρ φ)) (actions.map (mvAction ρ φ)) =
      (taskConsistent g task terms params constants tasks actions).mv ρ φ id := by
  have h : (mvSymbol ρ φ task).name = ρ task.name := rfl
  unfold taskConsistent
  rw [argTypes_mv hρ, h, findAction_mv hρ, findTask_mv hρ]
  refine R.mv_bind fun found => ?_
  cases actions.find? fun a => a.name = task.name with
  | some d =>
    simp only [Option.map, mvAction, List.length_map]
    split
    · rfl
    · rw [types_mv, checkArgTypes_mv hρ fun _ => rfl]
  | none =>
    cases tasks.find? fun a => a.name = task.name with
    | some d =>
      simp only [Option.map, mvTask, List.length_map]
      split
      · rfl
      · rw [types_mv, checkArgTypes_mv hρ fun _ => rfl]
    | none => rfl

/-- A declaration seen before. -/
def mvSeen (ρ : Name → Name) (φ : Nat → Nat) (e : Name × Nat) : Name × Nat := (ρ e.1, φ e.2)

theorem seenPos_mv (hρ : Function.Injective ρ) (seen : List (Name × Nat)) (x : Name) :
    seenPos (seen.map (mvSeen ρ φ)) (ρ x) = (seenPos seen x).map φ := by
  unfold seenPos
  rw [find_mv (mvSeen ρ φ) (fun e => e.1 = x) _ fun e => by simp [mvSeen, hρ.eq_iff]]
  cases seen.find? fun e => e.1 = x <;> rfl

theorem checkDupReqs_mv (seen rs : List Req) : checkDupReqs seen rs = (checkDupReqs seen rs).mv ρ φ id := by
  induction rs generalizing seen with
  | nil => rfl
  | cons r rs ih =>
    rw [checkDupReqs]
    split
    · rfl
    · exact ih _

theorem checkDupParams_mv (hρ : Function.Injective ρ) (seen : List (Name × Nat)) (ps : List Symbol) :
    checkDupParams (seen.map (mvSeen ρ φ)) (ps.map (mvSymbol ρ φ)) = (checkDupParams seen ps).mv ρ φ id := by
  induction ps generalizing seen with
  | nil => rfl
  | cons p ps ih =>
    have h : (mvSymbol ρ φ p).name = ρ p.name := rfl
    simp only [List.map_cons, checkDupParams, h, seenPos_mv hρ]
    cases seenPos seen p.name with
    | some q => rfl
    | none => exact ih ((p.name, p.pos) :: seen)

theorem checkDupObjects_mv (hρ : Function.Injective ρ) (seen : List (Name × Nat)) (ps : List Symbol) :
    checkDupObjects (seen.map (mvSeen ρ φ)) (ps.map (mvSymbol ρ φ)) = (checkDupObjects seen ps).mv ρ φ id := by
  induction ps generalizing seen with
  | nil => rfl
  | cons p ps ih =>
    have h : (mvSymbol ρ φ p).name = ρ p.name := rfl
    simp only [List.map_cons, checkDupObjects, h, seenPos_mv hρ]
    cases seenPos seen p.name with
    | some q => rfl
    | none => exact ih ((p.name, p.pos) :: seen)

theorem verifyPredicates_mv (hρ : Function.Injective ρ) (seen : List (Name × Nat)) (ps : List Predicate) :
    verifyPredicates (g.mv ρ) (seen.map (mvSeen ρ φ)) (ps.map (mvPredicate ρ φ)) = (verifyPredicates g seen ps).mv ρ φ id := by
  induction ps generalizing seen with
  | nil => rfl
  | cons p ps ih =>
    have h : (mvPredicate ρ φ p).name = ρ p.name := rfl
    simp only [List.map_cons, verifyPredicates, h, seenPos_mv hρ]
    cases seenPos seen p.name with
    | some q => rfl
    | none =>
      simp only [Option.map, mvPredicate, checkDecls_mv hρ]
      exact R.mv_bind fun _ => ih ((p.name, p.pos) :: seen)

theorem verifyTasks_mv (hρ : Function.Injective ρ) (seen : List (Name × Nat)) (ps : List Task) :
    verifyTasks (g.mv ρ) (seen.map (mvSeen ρ φ)) (ps.map (mvTask ρ φ)) = (verifyTasks g seen ps).mv ρ φ id := by
  induction ps generalizing seen with
  | nil => rfl
  | cons p ps ih =>
    have h : (mvTask ρ φ p).name = ρ p.name := rfl
    simp only [List.map_cons, verifyTasks, h, seenPos_mv hρ]
    cases seenPos seen p.name with
    | some q => rfl
    | none =>
      simp only [Option.map, mvTask, checkDecls_mv hρ]
      exact R.mv_bind fun _ => ih ((p.name, p.pos) :: seen)

theorem checkOptFormula_mv (hρ : Function.Injective ρ) (ps : List Predicate) (params constants : List Symbol) (o : Option Formula) :
    checkOptFormula (g.mv ρ) (ps.map (mvPredicate ρ φ)) (params.map (mvSymbol ρ φ)) (constants.map (mvSymbol ρ φ))
      (o.map (mvFormula ρ φ)) = (checkOptFormula g ps params constants o).mv ρ φ id := by
  cases o with
  | none => rfl
  | some f =>
    simp only [Option.map, checkOptFormula, checkPredDecls_mv hρ, propPreds_mv, checkFormula_mv hρ]
    exact R.mv_bind fun _ => rfl

theorem verifyActions_mv (hρ : Function.Injective ρ) (ps : List Predicate) (constants : List Symbol) (seen : List (Name × Nat))
    (as : List Action) :
    verifyActions (g.mv ρ) (ps.map (mvPredicate ρ φ)) (constants.map (mvSymbol ρ φ)) (seen.map (mvSeen ρ φ)) (as.map (mvAction ρ φ)) =
      (verifyActions g ps constants seen as).mv ρ φ id := by
  induction as generalizing seen with
  | nil => rfl
  | cons p as ih =>
    have h : (mvAction ρ φ p).name = ρ p.name := rfl
    simp only [List.map_cons, verifyActions, h, seenPos_mv hρ]
    cases seenPos seen p.name with
    | some q => rfl
    | none =>
      simp only [Option.map_none, mvAction, checkOptFormula_mv hρ]
      rw [show checkDupParams [] (p.params.map (mvSymbol ρ φ)) = _ from checkDupParams_mv hρ [] p.params]
      exact R.mv_bind fun _ => R.mv_bind fun _ => R.mv_bind fun _ => ih ((p.name, p.pos) :: seen)

theorem checkMethodTask_mv (hρ : Function.Injective ρ) (ts : List Task) (m : Method) :
    checkMethodTask (ts.map (mvTask ρ φ)) (mvMethod ρ φ m) = (checkMethodTask ts m).mv ρ φ id := by
  have h : (mvMethod ρ φ m).task.name = ρ m.task.name := rfl
  unfold checkMethodTask
  rw [h, findTask_mv' hρ]
  cases ts.find? fun t => m.task.name = t.name with
  | none => rfl
  | some t =>
    simp only [Option.map, mvMethod, mvTask, List.length_map]
    split <;> rfl

theorem checkSubtasks_mv (hρ : Function.Injective ρ) (params constants : List Symbol) (tasks : List Task) (actions : List Action)
    (ss : List Subtask) :
    checkSubtasks (g.mv ρ) (params.map (mvSymbol ρ φ)) (constants.map (mvSymbol ρ φ)) (tasks.map (mvTask ρ φ))
      (actions.map (mvAction ρ φ)) (ss.map (mvSubtask ρ φ)) = (checkSubtasks g params constants tasks actions ss).mv ρ φ id := by
  induction ss with
  | nil => rfl
  | cons s ss ih =>
    simp only [List.map_cons, checkSubtasks, mvSubtask, taskConsistent_mv hρ]
    exact R.mv_bind fun _ => ih

theorem orderingAcyclic_mv (hρ : Function.Injective ρ) (o : Ordering) : (rnOrdering ρ o).isAcyclic = o.isAcyclic := by
  cases o with
  | total => rfl
  | partial_ os => exact isAcyclic_mv hρ os

theorem checkOrdering_mv (hρ : Function.Injective ρ) (h : HTN) : checkOrdering (mvHtn ρ φ h) = (checkOrdering h).mv ρ φ id := by
  unfold checkOrdering
  simp only [mvHtn, orderingAcyclic_mv hρ]
  split
  · rfl
  · cases h.orderingPos <;> rfl

theorem verifyMethods_mv (hρ : Function.Injective ρ) (ps : List Predicate) (constants : List Symbol) (tasks tasksIt : List Task)
    (actions : List Action) (seen : List (Name × Nat)) (ms : List Method) :
    verifyMethods (g.mv ρ) (ps.map (mvPredicate ρ φ)) (constants.map (mvSymbol ρ φ)) (tasks.map (mvTask ρ φ))
      (tasksIt.map (mvTask ρ φ)) (actions.map (mvAction ρ φ)) (seen.map (mvSeen ρ φ)) (ms.map (mvMethod ρ φ)) =
      (verifyMethods g ps constants tasks tasksIt actions seen ms).mv ρ φ id := by
  induction ms generalizing seen with
  | nil => rfl
  | cons m ms ih =>
    have h : (mvMethod ρ φ m).name.name = ρ m.name.name := rfl
    simp only [List.map_cons, verifyMethods, h, seenPos_mv hρ]
    cases seenPos seen m.name.name with
    | some q => rfl
    | none =>
      have h1 : checkDupParams [] (mvMethod ρ φ m).params = (checkDupParams [] m.params).mv ρ φ id :=
        checkDupParams_mv hρ [] m.params
      have h2 : checkOptFormula (g.mv ρ) (ps.map (mvPredicate ρ φ)) (mvMethod ρ φ m).params (constants.map (mvSymbol ρ φ))
          (mvMethod ρ φ m).pre = (checkOptFormula g ps m.params constants m.pre).mv ρ φ id := checkOptFormula_mv hρ ..
      have h3 : taskConsistent (g.mv ρ) (mvMethod ρ φ m).task (mvMethod ρ φ m).taskTerms (mvMethod ρ φ m).params
          (constants.map (mvSymbol ρ φ)) (tasksIt.map (mvTask ρ φ)) [] =
          (taskConsistent g m.task m.taskTerms m.params constants tasksIt []).mv ρ φ id :=
        taskConsistent_mv hρ _ _ _ _ _ []
      have h4 : checkSubtasks (g.mv ρ) (mvMethod ρ φ m).params (constants.map (mvSymbol ρ φ)) (tasksIt.map (mvTask ρ φ))
          (actions.map (mvAction ρ φ)) (mvMethod ρ φ m).tn.subtasks =
          (checkSubtasks g m.params constants tasksIt actions m.tn.subtasks).mv ρ φ id := checkSubtasks_mv hρ ..
      have h5 : checkOrdering (mvMethod ρ φ m).tn = (checkOrdering m.tn).mv ρ φ id := checkOrdering_mv hρ _
      simp only [Option.map_none, h1, h2, h3, h4, h5, checkMethodTask_mv hρ]
      exact R.mv_bind fun _ => R.mv_bind fun _ => R.mv_bind fun _ => R.mv_bind fun _ => R.mv_bind fun _ => R.mv_bind fun _ =>
        ih ((m.name.name, m.name.pos) :: seen)

variable {ord : HashOrd} {d : DomainAST} {p : ProblemAST}

theorem getD_mv (o : Option (List Symbol)) : (o.map (List.map (mvSymbol ρ φ))).getD [] = (o.getD []).map (mvSymbol ρ φ) := by
  cases o <;> rfl

theorem checkDomain_mv (hρ : Function.Injective ρ) : checkDomain ord (mvDomain ρ φ d) = (checkDomain ord d).mv ρ φ id := by
  unfold checkDomain
  simp only [mvDomain, typeGraph_mv, getD_mv, arrange_map]
  conv_lhs => rw [checkDupReqs_mv (ρ := ρ) (φ := φ)]
  rw [typeVerify_mv (φ := φ) hρ,
    show verifyPredicates _ [] (d.predicates.map (mvPredicate ρ φ)) = _ from verifyPredicates_mv hρ [] d.predicates,
    show verifyTasks _ [] (d.tasks.map (mvTask ρ φ)) = _ from verifyTasks_mv hρ [] d.tasks,
    show verifyActions _ _ _ [] (d.actions.map (mvAction ρ φ)) = _ from verifyActions_mv hρ _ _ [] d.actions,
    show verifyMethods _ _ _ _ _ _ [] (d.methods.map (mvMethod ρ φ)) = _ from verifyMethods_mv hρ _ _ _ _ _ [] d.methods]
  exact R.mv_bind fun _ => R.mv_bind fun _ => R.mv_bind fun _ => R.mv_bind fun _ => R.mv_bind fun _ => rfl

/-! ### The decomposition graph -/

mutual

theorem rnFormula_mv : ∀ f : Formula, rnFormula id (mvFormula ρ φ f) = rnFormula ρ f
  | .empty => by simp [mvFormula, rnFormula]
  | .atom p => by simp [mvFormula, rnFormula, rnPredicate, mvPredicate, rnSymbol, mvSymbol, Function.comp_def]
  | .not f => by simp [mvFormula, rnFormula, rnFormula_mv f]
  | .and fs => by simp [mvFormula, rnFormula, rnFormulas_mv fs]
  | .or fs => by simp [mvFormula, rnFormula, rnFormulas_mv fs]
  | .xor fs => by simp [mvFormula, rnFormula, rnFormulas_mv fs]
  | .imply ps qs => by simp [mvFormula, rnFormula, rnFormulas_mv ps, rnFormulas_mv qs]
  | .exists_ _ f => by simp [mvFormula, rnFormula, rnFormula_mv f, rnSymbol, mvSymbol, Function.comp_def]
  | .forall_ _ f => by simp [mvFormula, rnFormula, rnFormula_mv f, rnSymbol, mvSymbol, Function.comp_def]
  | .weighted _ f => by simp [mvFormula, rnFormula, rnFormula_mv f]
  | .equals _ _ => by simp [mvFormula, rnFormula]

theorem rnFormulas_mv : ∀ fs : List Formula, rnFormulas id (mvFormulas ρ φ fs) = rnFormulas ρ fs
  | [] => by simp [mvFormulas, rnFormulas]
  | f :: fs => by simp [mvFormulas, rnFormulas, rnFormula_mv f, rnFormulas_mv fs]

end

theorem rnSymbol_mv (s : Symbol) : rnSymbol id (mvSymbol ρ φ s) = rnSymbol ρ s := by
  simp [rnSymbol, mvSymbol, Function.comp_def]

theorem rnOrdering_mv (o : Ordering) : rnOrdering id (rnOrdering ρ o) = rnOrdering ρ o := by
  cases o <;> simp [rnOrdering]

theorem rnConstraint_mv (c : Constraint) : rnConstraint id (rnConstraint ρ c) = rnConstraint ρ c := by
  cases c <;> simp [rnConstraint]

theorem rnHtn_mv (h : HTN) : rnHtn id (mvHtn ρ φ h) = rnHtn ρ h := by
  simp [rnHtn, mvHtn, rnSubtask, mvSubtask, rnSymbol_mv, rnOrdering_mv, rnConstraint_mv, Function.comp_def]

theorem rnDomain_mv : rnDomain id (mvDomain ρ φ d) = rnDomain ρ d := by
  simp [rnDomain, mvDomain, rnSymbol_mv, Function.comp_def, rnPredicate, mvPredicate, rnTask, mvTask, rnAction, mvAction,
    rnMethod, mvMethod, rnHtn_mv, rnFormula_mv]

theorem rnProblem_mv : rnProblem id (mvProblem ρ φ p) = rnProblem ρ p := by
  simp [rnProblem, mvProblem, rnSymbol_mv, Function.comp_def, rnPredicate, mvPredicate, rnInitTn, mvInitTn, rnHtn_mv,
    rnFormula_mv]
  congr 1

theorem tdgNew_mv (hρ : Function.Injective ρ) :
    (TDG.new ord (mvDomain ρ φ d)).map (TDG.rn id) = (TDG.new ord d).map (TDG.rn ρ) := by
  have h1 : TDG.new ord (rnDomain id (mvDomain ρ φ d)) = (TDG.new ord (mvDomain ρ φ d)).map (TDG.rn id) :=
    TDG.new_rn (fun _ _ _ => rfl) Function.injective_id
  rw [← h1, rnDomain_mv]
  exact TDG.new_rn (fun _ _ _ => rfl) hρ

theorem reachable_mv (hρ : Function.Injective ρ) {t t' : TDG} (h : t'.rn id = t.rn ρ) (n : Nat) (x : Name) :
    t'.reachable n (ρ x) = (t.reachable n x).map fun r => ⟨r.primitives.map ρ, r.compounds.map ρ, r.nullable⟩ := by
  have h1 : (t'.rn id).reachable n (ρ x) = t'.reachable n (ρ x) := by
    have h2 : (t'.rn id).reachable n (ρ x) = (t'.reachable n (ρ x)).map fun r => ⟨r.primitives.map id, r.compounds.map id, r.nullable⟩ :=
      TDG.reachable_rn Function.injective_id n (ρ x)
    rw [h2]
    cases t'.reachable n (ρ x) <;> simp [R.map]
  rw [← h1, h, TDG.reachable_rn hρ]

theorem collectWarnings_mv (hρ : Function.Injective ρ) {t t' : TDG} (h : t'.rn id = t.rn ρ) (n : Nat) (ts : List Task)
    {ws : List Warning} (hw : collectWarnings t n ts = .ok ws) :
    collectWarnings t' n (ts.map (mvTask ρ φ)) = .ok (ws.map (mvWarning ρ φ)) := by
  induction ts generalizing ws with
  | nil => cases hw; rfl
  | cons a ts ih =>
    rw [collectWarnings] at hw
    obtain ⟨r, h1, hw⟩ := R.bind_ok_iff.mp hw
    obtain ⟨vs, h2, hw⟩ := R.bind_ok_iff.mp hw
    have h3 : (mvTask ρ φ a).name = ρ a.name := rfl
    simp only [List.map_cons, collectWarnings, h3, reachable_mv hρ h, h1, ih h2, R.map, R.bind_ok, List.length_map]
    rw [← R.ok.inj hw]
    split <;> rfl

/-- The symbol table of the domain with other names and lines. -/
def SymbolTable.mv (ρ : Name → Name) (φ : Nat → Nat) (st : SymbolTable) : SymbolTable :=
  ⟨st.warnings.map (mvWarning ρ φ), st.constants.map (mvSymbol ρ φ), st.predicates.map (mvPredicate ρ φ),
    st.tasks.map (mvTask ρ φ), st.actions.map (mvAction ρ φ), st.types.mv ρ⟩

theorem verifyDomain_mv (hρ : Function.Injective ρ) {n : Nat} {st : SymbolTable} (h : verifyDomain ord n d = .ok st) :
    verifyDomain ord n (mvDomain ρ φ d) = .ok (st.mv ρ φ) := by
  unfold verifyDomain at h ⊢
  obtain ⟨_, h1, h⟩ := R.bind_ok_iff.mp h
  obtain ⟨t, h2, h⟩ := R.bind_ok_iff.mp h
  obtain ⟨ws, h3, h⟩ := R.bind_ok_iff.mp h
  have h4 := tdgNew_mv (ord := ord) (d := d) (φ := φ) hρ
  rw [h2] at h4
  obtain ⟨t', h5, h6⟩ := R.bind_ok_iff.mp h4
  rw [checkDomain_mv hρ, h1, h5]
  simp only [R.mv, R.bind_ok]
  have h7 : (mvDomain ρ φ d).tasks = d.tasks.map (mvTask ρ φ) := rfl
  rw [h7, arrange_map, collectWarnings_mv hρ (R.ok.inj h6) n _ h3, ← R.ok.inj h]
  simp only [R.bind_ok, SymbolTable.mv, mvDomain, getD_mv, typeGraph_mv]

/-! ### Problems -/

variable {st : SymbolTable}

theorem checkPredArgs_mv (hρ : Function.Injective ρ) (objs : List Symbol) (x : Name) (es fs : List Symbol) :
    checkPredArgs (st.mv ρ φ) (objs.map (mvSymbol ρ ψ)) (ρ x) (es.map (mvSymbol ρ φ)) (fs.map (mvSymbol ρ ψ)) =
      (checkPredArgs st objs x es fs).mv ρ ψ id := by
  induction es generalizing fs with
  | nil => cases fs <;> rfl
  | cons e es ih =>
    cases fs with
    | nil => rfl
    | cons f fs =>
      have h : (mvSymbol ρ ψ f).name = ρ f.name := rfl
      have h1 : (st.mv ρ φ).types = st.types.mv ρ := rfl
      have h2 : (st.mv ρ φ).constants = st.constants.map (mvSymbol ρ φ) := rfl
      have h3 : ∀ χ s, (mvSymbol ρ χ s).ty = s.ty.map ρ := fun _ _ => rfl
      simp only [List.map_cons, checkPredArgs, h, h1, h2, findParam_mv hρ, findSym_mv hρ]
      cases findParam objs f.name with
      | some o =>
        simp only [Option.map_some, h3, consistent_mv hρ]
        split
        · exact ih fs
        · rfl
      | none =>
        cases findSym st.constants f.name with
        | some o =>
          simp only [Option.map_none, Option.map_some, h3, consistent_mv hρ]
          split
          · exact ih fs
          · rfl
        | none => rfl

theorem checkPredInst_mv (hρ : Function.Injective ρ) (objs : List Symbol) (a : Predicate) :
    checkPredInst (st.mv ρ φ) (objs.map (mvSymbol ρ ψ)) (mvPredicate ρ ψ a) = (checkPredInst st objs a).mv ρ ψ id := by
  have h : (mvPredicate ρ ψ a).name = ρ a.name := rfl
  have h1 : (st.mv ρ φ).predicates = st.predicates.map (mvPredicate ρ φ) := rfl
  unfold checkPredInst
  rw [h, h1, findPred_mv hρ]
  cases st.predicates.find? fun d => d.name = a.name with
  | none => rfl
  | some d =>
    simp only [Option.map, mvPredicate, List.length_map]
    split
    · rfl
    · exact checkPredArgs_mv hρ ..

theorem checkPredInsts_mv (hρ : Function.Injective ρ) (objs : List Symbol) (as : List Predicate) :
    checkPredInsts (st.mv ρ φ) (objs.map (mvSymbol ρ ψ)) (as.map (mvPredicate ρ ψ)) = (checkPredInsts st objs as).mv ρ ψ id := by
  induction as with
  | nil => rfl
  | cons a as ih =>
    rw [List.map_cons, checkPredInsts, checkPredInsts, checkPredInst_mv hρ]
    exact R.mv_bind fun _ => ih

theorem findFirst_mv (hρ : Function.Injective ρ) (l : List Symbol) (x : Name) :
    (l.map (mvSymbol ρ ψ)).find? (fun s => s.name = ρ x) = (l.find? fun s => s.name = x).map (mvSymbol ρ ψ) :=
  find_mv _ _ _ (fun s => by simp [mvSymbol, hρ.eq_iff]) l

theorem checkSubtaskArgs_mv (hρ : Function.Injective ρ) (objs : List Symbol) (params : Option (List Symbol)) (x : Name)
    (es fs : List Symbol) :
    checkSubtaskArgs (st.mv ρ φ) (objs.map (mvSymbol ρ ψ)) (params.map (List.map (mvSymbol ρ ψ))) (ρ x) (es.map (mvSymbol ρ φ))
      (fs.map (mvSymbol ρ ψ)) = (checkSubtaskArgs st objs params x es fs).mv ρ ψ id := by
  induction es generalizing fs with
  | nil => cases fs <;> rfl
  | cons e es ih =>
    cases fs with
    | nil => rfl
    | cons f fs =>
      have h : (mvSymbol ρ ψ f).name = ρ f.name := rfl
      have h1 : (st.mv ρ φ).types = st.types.mv ρ := rfl
      have h2 : (st.mv ρ φ).constants = st.constants.map (mvSymbol ρ φ) := rfl
      have h3 : ∀ χ s, (mvSymbol ρ χ s).ty = s.ty.map ρ := fun _ _ => rfl
      simp only [List.map_cons, checkSubtaskArgs, h, h1, h2, findParam_mv hρ, findSym_mv hρ, getD_mv, findFirst_mv hρ]
      cases findParam objs f.name with
      | some o =>
        simp only [Option.map_some, h3, consistent_mv hρ]
        split
        · exact ih fs
        · rfl
      | none =>
        cases (params.getD []).find? fun s => s.name = f.name with
        | some o =>
          simp only [Option.map_none, Option.map_some, h3, consistent_mv hρ]
          split
          · exact ih fs
          · rfl
        | none =>
          cases findSym st.constants f.name with
          | some o =>
            simp only [Option.map_none, Option.map_some, h3, consistent_mv hρ]
            split
            · exact ih fs
            · rfl
          | none => rfl

theorem checkSubtaskInst_mv (hρ : Function.Injective ρ) (objs : List Symbol) (params : Option (List Symbol)) (s : Subtask) :
    checkSubtaskInst (st.mv ρ φ) (objs.map (mvSymbol ρ ψ)) (params.map (List.map (mvSymbol ρ ψ))) (mvSubtask ρ ψ s) =
      (checkSubtaskInst st objs params s).mv ρ ψ id := by
  have h : (mvSubtask ρ ψ s).task.name = ρ s.task.name := rfl
  have h1 : (st.mv ρ φ).actions = st.actions.map (mvAction ρ φ) := rfl
  have h2 : (st.mv ρ φ).tasks = st.tasks.map (mvTask ρ φ) := rfl
  unfold checkSubtaskInst
  rw [h, h1, h2, findAction_mv hρ, findTask_mv hρ]
  cases st.actions.find? fun a => a.name = s.task.name with
  | some a =>
    simp only [Option.map_some, mvAction, mvSubtask, List.length_map]
    split
    · rfl
    · exact checkSubtaskArgs_mv hρ ..
  | none =>
    cases st.tasks.find? fun a => a.name = s.task.name with
    | some a =>
      simp only [Option.map_none, Option.map_some, mvTask, mvSubtask, List.length_map]
      split
      · rfl
      · exact checkSubtaskArgs_mv hρ ..
    | none => rfl

theorem checkSubtaskInsts_mv (hρ : Function.Injective ρ) (objs : List Symbol) (params : Option (List Symbol)) (ss : List Subtask) :
    checkSubtaskInsts (st.mv ρ φ) (objs.map (mvSymbol ρ ψ)) (params.map (List.map (mvSymbol ρ ψ))) (ss.map (mvSubtask ρ ψ)) =
      (checkSubtaskInsts st objs params ss).mv ρ ψ id := by
  induction ss with
  | nil => rfl
  | cons s ss ih =>
    rw [List.map_cons, checkSubtaskInsts, checkSubtaskInsts, checkSubtaskInst_mv hρ]
    exact R.mv_bind fun _ => ih

theorem checkInitTn_mv (hρ : Function.Injective ρ) (objs : List Symbol) (o : Option InitTN) :
    checkInitTn (st.mv ρ φ) (objs.map (mvSymbol ρ ψ)) (o.map (mvInitTn ρ ψ)) = (checkInitTn st objs o).mv ρ ψ id := by
  cases o with
  | none => rfl
  | some h =>
    simp only [Option.map_some, checkInitTn, mvInitTn, checkOrdering_mv hρ]
    exact R.mv_bind fun _ => checkSubtaskInsts_mv hρ ..

theorem checkGoal_mv (hρ : Function.Injective ρ) (objs : List Symbol) (o : Option Formula) :
    checkGoal (st.mv ρ φ) (objs.map (mvSymbol ρ ψ)) (o.map (mvFormula ρ ψ)) = (checkGoal st objs o).mv ρ ψ id := by
  cases o with
  | none => rfl
  | some f =>
    simp only [Option.map_some, checkGoal, propPreds_mv]
    exact checkPredInsts_mv hρ ..

theorem verifyProblem_mv (hρ : Function.Injective ρ) :
    verifyProblem (st.mv ρ φ) (mvProblem ρ ψ p) = (verifyProblem st p).mv ρ ψ (List.map (mvWarning ρ φ)) := by
  have h1 : (st.mv ρ φ).types = st.types.mv ρ := rfl
  unfold verifyProblem
  simp only [mvProblem, h1, checkDecls_mv hρ, checkPredInsts_mv hρ, checkInitTn_mv hρ, checkGoal_mv hρ]
  rw [show checkDupObjects [] (p.objects.map (mvSymbol ρ ψ)) = _ from checkDupObjects_mv hρ [] p.objects]
  exact R.mv_bind fun _ => R.mv_bind fun _ => R.mv_bind fun _ => R.mv_bind fun _ => R.mv_bind fun _ => rfl

end Verif
