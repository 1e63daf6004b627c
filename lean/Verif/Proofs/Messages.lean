import Verif.Model.MessageText
import Verif.Spec.Messages
import Verif.Proofs.Printing
import Verif.Proofs.JsonText

/-! Reading printed messages. -/

namespace Verif

open Spec

/-! ### Words -/

/-- Put `x` in front of the first word. -/
def glue (x : Bytes) : List Bytes → List Bytes
  | [] => [x]
  | w :: ws => (x ++ w) :: ws

theorem words_nil : words [] = [[]] := rfl

theorem words_space (r : Bytes) : words (32 :: r) = [] :: words r := rfl

theorem words_byte {c : UInt8} (h : c ≠ 32) (r : Bytes) : words (c :: r) = glue [c] (words r) := by
  rw [words, if_neg h]
  cases words r <;> rfl

theorem glue_glue (x y : Bytes) (l : List Bytes) : glue x (glue y l) = glue (x ++ y) l := by
  cases l <;> simp [glue]

theorem words_ne (r : Bytes) : words r ≠ [] := by
  cases r with
  | nil => simp [words]
  | cons c r =>
    rw [words]
    split
    · simp
    · split <;> simp

theorem words_name {x : Bytes} (h : 32 ∉ x) (r : Bytes) : words (x ++ r) = glue x (words r) := by
  induction x with
  | nil =>
    have := words_ne r
    cases hw : words r with
    | nil => exact absurd hw this
    | cons w ws => simp [glue, hw]
  | cons c x ih =>
    simp only [List.mem_cons, not_or] at h
    rw [List.cons_append, words_byte (Ne.symm h.1), ih h.2, glue_glue]; rfl

theorem words_word {x : Bytes} (h : 32 ∉ x) : words x = [x] := by
  have := words_name h []
  simpa [words_nil, glue] using this

theorem words_then {x : Bytes} (h : 32 ∉ x) (r : Bytes) : words (x ++ 32 :: r) = x :: words r := by
  rw [words_name h, words_space]; simp [glue]

theorem intercalate_words (r : Bytes) : [32].intercalate (words r) = r := by
  induction r with
  | nil => rfl
  | cons c r ih =>
    have hne := words_ne r
    cases hw : words r with
    | nil => exact absurd hw hne
    | cons w ws =>
      rw [hw] at ih
      by_cases hc : c = 32
      · subst hc
        rw [words_space, hw, ← ih]
        simp [List.intercalate_cons_cons]
      · rw [words_byte hc, hw, ← ih]
        cases ws <;> simp [glue, List.intercalate_cons_cons]

/-! ### Numbers and marks -/

theorem decimal_value (n : Nat) : Spec.decimal (Verif.decimal n) = n := by
  induction n using Nat.strongRecOn with
  | ind n ih =>
    unfold Verif.decimal
    by_cases h : n < 10
    · rw [if_pos h]
      simp only [Spec.decimal, List.length_nil, Nat.pow_zero, Nat.mul_one, Nat.add_zero, JSON.digit_toNat h]
      omega
    · rw [if_neg h, decimal_snoc, ih (n / 10) (by omega), JSON.digit_toNat (by omega)]
      omega

theorem decimal_digits (n : Nat) : Verif.decimal n ≠ [] ∧ ∀ c ∈ Verif.decimal n, Digit c :=
  ⟨(JSON.decimal_ok n).1.1, (JSON.decimal_ok n).1.2.1⟩

theorem readNumber_decimal (n : Nat) : readNumber (Verif.decimal n) = some n := by
  rw [readNumber, if_pos (decimal_digits n), decimal_value]

theorem decimal_space (n : Nat) : 32 ∉ Verif.decimal n := by
  intro h
  have := (decimal_digits n).2 _ h
  exact absurd this (by decide)

theorem before_snoc (c : UInt8) (w : Bytes) : before c (w ++ [c]) = some w := by simp [before]

theorem after_cons (c : UInt8) (w : Bytes) : after c (c :: w) = some w := by simp [after]

theorem quoted_quotes (w : Bytes) : quoted (39 :: (w ++ [39])) = some w := by
  rw [quoted, ← List.cons_append, before_snoc]; simp [after_cons]

theorem quotedThen_quotes (c : UInt8) (w : Bytes) : quotedThen c (39 :: (w ++ [39, c])) = some w := by
  have : (39 :: (w ++ [39, c]) : Bytes) = (39 :: (w ++ [39])) ++ [c] := by simp
  rw [quotedThen, this, before_snoc]; simp [quoted_quotes]

theorem readExpected_quotes (x y : Bytes) (h : 39 ∉ y) :
    readExpected (39 :: (x ++ (b!"', but found '" ++ (y ++ [39, 10])))) = some (x, y) := by
  have hb : (39 :: (x ++ (b!"', but found '" ++ (y ++ [39, 10]))) : Bytes) =
      39 :: ((((x ++ b!"', but found '") ++ y) ++ [39]) ++ [10]) := by simp
  have ht : (((x ++ b!"', but found '") ++ y).reverse.takeWhile (· ≠ 39)).reverse = y := by
    rw [List.reverse_append, List.takeWhile_append_of_pos (by
      intro c hc
      simp only [decide_not, Bool.not_eq_eq_eq_not, Bool.not_true, decide_eq_false_iff_not]
      rintro rfl
      exact h (List.mem_reverse.1 hc))]
    simp
  rw [hb, readExpected, after_cons]
  simp only [Option.bind_eq_bind, Option.bind_some, before_snoc, ht]
  have hl : ((x ++ b!"', but found '") ++ y).length - (b!"', but found '").length - y.length = x.length := by
    simp only [List.length_append]; omega
  rw [hl, List.append_assoc, List.take_left, if_pos rfl]

/-! ### Messages -/

/-- What a message is meant to say: everything in the error except for the line of a wrong number of arguments of a task
and whether a wrong type is that of an argument of a predicate or of a task. -/
def reportOf [Env] : PErr → Report
  | .lexical ⟨.invalidIdentifier, x, l⟩ => .invalidIdentifier x l
  | .lexical ⟨.invalidKeyword, x, l⟩ => .invalidKeyword x l
  | .lexical ⟨.invalidRealNumber, x, l⟩ => .invalidReal x l
  | .syntactic e => .syntax (Text.bytes e.expected) (Text.bytes e.found.show) e.pos
  | .semantic (.dupObject e) => .repeated .object e.symbol e.first e.second
  | .semantic (.dupRequirement r) => .repeatedRequirement r
  | .semantic (.dupPredicate e) => .repeated .predicate e.symbol e.first e.second
  | .semantic (.dupAction e) => .repeated .action e.symbol e.first e.second
  | .semantic (.dupTask e) => .repeated .task e.symbol e.first e.second
  | .semantic (.dupMethod e) => .repeated .method e.symbol e.first e.second
  | .semantic (.dupParameter e) => .repeated .parameter e.symbol e.first e.second
  | .semantic (.undefPredicate e) => .undefined .predicate e.symbol e.pos
  | .semantic (.undefType e) => .undefined .type e.symbol e.pos
  | .semantic (.undefSubtask e) => .undefined .subtask e.symbol e.pos
  | .semantic (.undefTask e) => .undefined .task e.symbol e.pos
  | .semantic (.undefParameter e) => .undefined .parameter e.symbol e.pos
  | .semantic (.undefObject e) => .undefined .object e.symbol e.pos
  | .semantic (.predArity e) => .predicateArity e.symbol e.expected e.found e.pos
  | .semantic (.taskArity e) => .taskArity e.symbol e.expected e.found
  | .semantic (.predArgType e) => .argumentType e.var e.expected e.found e.pos
  | .semantic (.taskArgType e) => .argumentType e.var e.expected e.found e.pos
  | .semantic .cyclicType => .cyclicTypes
  | .semantic (.cyclicOrdering l) => .cyclicOrdering l

/-- The names in a semantic error. -/
def namesIn : SemErr → List Name
  | .dupObject e | .dupPredicate e | .dupAction e | .dupTask e | .dupMethod e | .dupParameter e => [e.symbol]
  | .undefPredicate e | .undefType e | .undefSubtask e | .undefTask e | .undefParameter e | .undefObject e => [e.symbol]
  | .predArity e | .taskArity e => [e.symbol]
  | .predArgType e | .taskArgType e => e.var :: (e.expected.toList ++ e.found.toList)
  | _ => []

open Lean Meta in
/-- Replaces `keyBytes "..."` by the bytes. -/
dsimproc keyLit (keyBytes _) := fun e => do
  let .lit (.strVal s) := e.appArg! | return .continue
  let u8 := Lean.mkConst ``UInt8
  let mut r := mkApp (Lean.mkConst ``List.nil [Level.zero]) u8
  for x in s.toUTF8.toList.reverse do
    let lit := mkRawNatLit x.toNat
    let inst := mkApp (Lean.mkConst ``UInt8.instOfNat) lit
    let n := mkApp3 (Lean.mkConst ``OfNat.ofNat [Level.zero]) u8 lit inst
    r := mkApp3 (Lean.mkConst ``List.cons [Level.zero]) u8 n r
  return .done r

theorem bytes_s (x : String) (t : Text) : Text.bytes (.s x :: t) = keyBytes x ++ Text.bytes t := rfl

theorem bytes_n (x : Name) (t : Text) : Text.bytes (.n x :: t) = x ++ Text.bytes t := rfl

theorem bytes_i (x : Nat) (t : Text) : Text.bytes (.i x :: t) = Verif.decimal x ++ Text.bytes t := rfl

theorem bytes_nil : Text.bytes [] = [] := rfl

theorem bytes_append (t u : Text) : Text.bytes (t ++ u) = Text.bytes t ++ Text.bytes u := by
  simp [Text.bytes]

theorem glue_cons (x w : Bytes) (ws : List Bytes) : glue x (w :: ws) = (x ++ w) :: ws := rfl

/-- Words of a concrete text. -/
macro "split_words" "[" ts:Lean.Parser.Tactic.simpLemma,* "]" : tactic =>
  `(tactic| simp (decide := true) only [bytes_s, bytes_n, bytes_i, bytes_nil, bytes_append, keyLit, List.cons_append, List.nil_append, List.append_nil,
    words_nil, words_space, words_byte, glue_cons, ne_eq, not_false_eq_true, words_name (decimal_space _), $ts,*])

/-- Reads a concrete text. -/
macro "read_message" "[" ts:Lean.Parser.Tactic.simpLemma,* "]" : tactic =>
  `(tactic| (
    rw [readReport]
    split_words [$ts,*] <;>
    simp (decide := true) only [if_true, if_false, before_snoc, Option.bind_eq_bind, Option.bind_some, Option.map_some,
      readNumber_decimal, readLined, List.cons.injEq, and_false, false_and, and_true, true_and, reduceCtorEq, nounOf, readCounts,
      readRepeated, readTypes, quoted_quotes, quotedThen_quotes, requirementOf, and_self]))

theorem read_dup {k : Noun} {w : String} (e : DupErr) (hw : (w, k) ∈ [("object ", Noun.object), ("predicate ", .predicate),
    ("action ", .action), ("compound task ", .task), ("method ", .method), ("parameter ", .parameter)])
    (hx : 32 ∉ e.symbol) : readReport (Text.bytes (.s w :: e.show)) = some (.repeated k e.symbol e.first e.second) := by
  obtain ⟨x, l, m⟩ := e
  simp only [List.mem_cons, Prod.mk.injEq, List.not_mem_nil, or_false] at hw
  unfold DupErr.show
  rcases hw with ⟨rfl, rfl⟩ | ⟨rfl, rfl⟩ | ⟨rfl, rfl⟩ | ⟨rfl, rfl⟩ | ⟨rfl, rfl⟩ | ⟨rfl, rfl⟩ <;> read_message [words_name hx]

theorem read_undef {k : Noun} {w : String} (e : UndefErr) (hw : (w, k) ∈ [("predicate", Noun.predicate), ("type", .type),
    ("subtask", .subtask), ("task", .task), ("parameter", .parameter), ("object", .object)])
    (hx : 32 ∉ e.symbol) : readReport (Text.bytes (e.show w)) = some (.undefined k e.symbol e.pos) := by
  obtain ⟨x, l⟩ := e
  simp only [List.mem_cons, Prod.mk.injEq, List.not_mem_nil, or_false] at hw
  unfold UndefErr.show
  rcases hw with ⟨rfl, rfl⟩ | ⟨rfl, rfl⟩ | ⟨rfl, rfl⟩ | ⟨rfl, rfl⟩ | ⟨rfl, rfl⟩ | ⟨rfl, rfl⟩ <;> read_message [words_name hx]

theorem read_type {e : TypeErr} {t : Text} (h : e.show = .ok t) (hx : 32 ∉ e.var) (he : ∀ x ∈ e.expected, 32 ∉ x)
    (hf : ∀ x ∈ e.found, 32 ∉ x) :
    readReport (Text.bytes t) = some (.argumentType e.var e.expected e.found e.pos) := by
  obtain ⟨x, y, v, l⟩ := e
  cases x with
  | none =>
    cases y with
    | none => cases h
    | some y =>
      cases h
      read_message [words_name hx, words_name (hf y rfl)]
  | some x =>
    cases y with
    | none => cases h; read_message [words_name hx, words_name (he x rfl)]
    | some y => cases h; read_message [words_name hx, words_name (he x rfl), words_name (hf y rfl)]

theorem read_semantic [Env] {se : SemErr} {t : Text} (h : se.show = .ok t) (hn : ∀ x ∈ namesIn se, 32 ∉ x) :
    readReport (Text.bytes t) = some (reportOf (.semantic se)) := by
  cases se with
  | dupObject e | dupPredicate e | dupAction e | dupTask e | dupMethod e | dupParameter e =>
    cases h; exact read_dup e (by simp) (hn _ (by simp [namesIn]))
  | undefPredicate e | undefType e | undefSubtask e | undefTask e | undefParameter e | undefObject e =>
    cases h; exact read_undef e (by simp) (hn _ (by simp [namesIn]))
  | dupRequirement r => cases h; cases r <;> unfold Req.show <;> read_message [reportOf]
  | predArity e =>
    obtain ⟨x, a, b, l⟩ := e
    have hx := hn x (by simp [namesIn])
    cases h; read_message [words_name hx, reportOf]
  | taskArity e =>
    obtain ⟨x, a, b, l⟩ := e
    have hx := hn x (by simp [namesIn])
    cases h; read_message [words_name hx, reportOf]
  | predArgType e | taskArgType e =>
    exact read_type h (hn _ (by simp [namesIn])) (fun x hx => hn x (by simp_all [namesIn]))
      (fun x hx => hn x (by simp_all [namesIn]))
  | cyclicType => cases h; read_message [reportOf]
  | cyclicOrdering l => cases h; read_message [reportOf]

theorem read_lexical [Env] (e : LexError) (hx : 32 ∉ e.lexeme) :
    readReport (Text.bytes e.show) = some (reportOf (.lexical e)) := by
  obtain ⟨k, x, l⟩ := e
  cases k <;> unfold LexError.show <;> read_message [words_name hx, reportOf]

theorem read_warning (w : Warning) (hx : 32 ∉ w.symbol) :
    readReport (Text.bytes w.show) = some (.noRefinement w.symbol w.pos) := by
  obtain ⟨x, l⟩ := w
  unfold Warning.show
  read_message [words_name hx]

theorem read_syntactic [Env] (e : SynError) (hq : 39 ∉ Text.bytes e.found.show) :
    readReport (Text.bytes e.show) = some (reportOf (.syntactic e)) := by
  obtain ⟨x, f, l⟩ := e
  have hr := readExpected_quotes (Text.bytes x) _ hq
  generalize hb : 39 :: (Text.bytes x ++ (b!"', but found '" ++ (Text.bytes f.show ++ [39, 10]))) = raw at hr
  have h1 : Text.bytes (SynError.show ⟨x, f, l⟩) = b!"line " ++ (Verif.decimal l ++ (b!": expected " ++ raw)) := by
    rw [← hb]
    simp only [SynError.show, bytes_s, bytes_i, bytes_nil, bytes_append, keyLit, List.cons_append, List.nil_append, List.append_nil,
      List.append_assoc]
  rw [h1, readReport]
  split_words [reportOf]
  simp (decide := true) only [if_true, before_snoc, Option.bind_eq_bind, Option.bind_some, readNumber_decimal, readLined,
    intercalate_words, hr, Option.map_some]

end Verif
