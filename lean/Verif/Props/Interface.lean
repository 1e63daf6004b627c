import Verif.Props.Changes
import Verif.Props.Crashes
import Verif.Props.Faults
import Verif.Spec.Interface

/-! C90: a problem is checked against the interface of its domain only. -/

namespace Verif

open Spec

section interface

variable {d d' : DomainAST} (h : SameInterface d d')
include h

theorem Spec.SameInterface.typeKnown (t : Name) : TypeKnown (typesOf d) t ↔ TypeKnown (typesOf d') t := by
  have key : ∀ {a b : DomainAST}, (∀ t ty, (∃ s ∈ typesOf a, s.name = t ∧ s.ty = ty) → ∃ s ∈ typesOf b, s.name = t ∧ s.ty = ty) →
      TypeKnown (typesOf a) t → TypeKnown (typesOf b) t := by
    rintro a b hab ⟨x, hx, hn⟩
    obtain ⟨y, hy, h1, h2⟩ := hab x.name x.ty ⟨x, hx, rfl, rfl⟩
    exact ⟨y, hy, by rw [h1, h2]; exact hn⟩
  exact ⟨key fun t ty => (h.types t ty).mp, key fun t ty => (h.types t ty).mpr⟩

theorem Spec.SameInterface.directSub : DirectSub (typesOf d) = DirectSub (typesOf d') := by
  funext s t
  exact propext (h.types s (some t))

theorem Spec.SameInterface.fits (a b : Option Name) : Fits (typesOf d) a b ↔ Fits (typesOf d') a b := by
  have hs := h.directSub
  constructor
  · rintro (_ | h1)
    · exact .untyped
    · exact .sub (hs ▸ h1)
  · rintro (_ | h1)
    · exact .untyped
    · exact .sub (hs ▸ h1)

omit h in
theorem unbound_iff_typeIn (scope : List (List Symbol)) (x : Name) : Unbound scope x ↔ ∀ ty, ¬ TypeIn scope x ty := by
  rw [← findScope_none]
  simp only [findScope_type]
  cases findScope scope x <;> simp

omit h in
theorem typeIn_det {scope : List (List Symbol)} {x : Name} {ty ty' : Option Name} (h1 : TypeIn scope x ty)
    (h2 : TypeIn scope x ty') : ty = ty' := by
  rw [findScope_type] at h1 h2
  obtain ⟨s, h1, rfl⟩ := h1
  obtain ⟨s', h2, rfl⟩ := h2
  rw [h1] at h2
  cases h2
  rfl

theorem Spec.SameInterface.view : SameView d d' where
  types := h.typeKnown
  predicates := h.predicates
  callees := h.callees
  fits := fun ft _ ty => h.fits ty ft
  bound := fun _ _ x => by simp only [unbound_iff_typeIn, h.constants]
  constants := fun ft _ x ty ty' h1 h2 => by
    cases typeIn_det h1 ((h.constants x ty').mpr h2)
    exact ⟨h.fits _ _, fun _ => rfl⟩

end interface

section checks

variable {d d' : DomainAST} (h : SameView d d')
include h

theorem Spec.SameView.view_arg {ft : Option Name} (hs : Slot d ft) (x : Name) (B : Prop) (P Q : Option Name → Prop) :
    (∃ ty, ¬ Fits (typesOf d) ty ft ∧ (P ty ∨ (B ∧ TypeIn [constantsOf d] x ty ∧ Q ty))) ↔
      ∃ ty, ¬ Fits (typesOf d') ty ft ∧ (P ty ∨ (B ∧ TypeIn [constantsOf d'] x ty ∧ Q ty)) := by
  have hb := h.bound ft hs x
  simp only [unbound_iff_typeIn] at hb
  constructor
  · rintro ⟨ty, hf, hp | ⟨h1, h2, h3⟩⟩
    · exact ⟨ty, fun h1 => hf ((h.fits ft hs ty).mpr h1), .inl hp⟩
    · have : ∃ ty', TypeIn [constantsOf d'] x ty' := by
        by_contra hc
        push Not at hc
        exact hb.mpr hc ty h2
      obtain ⟨ty', h4⟩ := this
      obtain ⟨h5, h6⟩ := h.constants ft hs x ty ty' h2 h4
      cases h6 hf
      exact ⟨ty, fun h7 => hf (h5.mpr h7), .inr ⟨h1, h4, h3⟩⟩
  · rintro ⟨ty', hf, hp | ⟨h1, h2, h3⟩⟩
    · exact ⟨ty', fun h1 => hf ((h.fits ft hs ty').mp h1), .inl hp⟩
    · have : ∃ ty, TypeIn [constantsOf d] x ty := by
        by_contra hc
        push Not at hc
        exact hb.mp hc ty' h2
      obtain ⟨ty, h4⟩ := this
      obtain ⟨h5, h6⟩ := h.constants ft hs x ty ty' h4 h2
      have hf' : ¬ Fits (typesOf d) ty ft := fun h7 => hf (h5.mp h7)
      cases h6 hf'
      exact ⟨_, hf', .inr ⟨h1, h4, h3⟩⟩

theorem Spec.SameView.unbound {ft : Option Name} (hs : Slot d ft) (before : List (List Symbol)) (x : Name) :
    Unbound (before ++ [constantsOf d]) x ↔ Unbound (before ++ [constantsOf d']) x := by
  have hu := h.bound ft hs x
  unfold Unbound at hu ⊢
  simp only [List.mem_append, or_imp, forall_and]
  exact and_congr_right fun _ => hu

theorem Spec.SameView.typeUnknown : typeUnknown d = typeUnknown d' := by
  funext s x
  unfold Spec.typeUnknown
  simp only [h.types]

omit h in
theorem atomWrong_types (d : DomainAST) (a : Predicate) (x : Finding) : atomWrong d a x ↔
    ((∀ ts, ¬ PredicateTypes d a.name ts) ∧ x = .error (.undefPredicate ⟨a.name, a.pos⟩)) ∨
      ∃ ts, PredicateTypes d a.name ts ∧ a.vars.length ≠ ts.length ∧
        x = .error (.predArity ⟨a.name, ts.length, a.vars.length, a.pos⟩) := by
  have h1 : (∀ q ∈ d.predicates, q.name ≠ a.name) ↔ ∀ ts, ¬ PredicateTypes d a.name ts := by
    unfold PredicateTypes
    exact ⟨fun h0 ts ⟨q, hq, hn, _⟩ => h0 q hq hn, fun h0 q hq hn => h0 _ ⟨q, hq, hn, rfl⟩⟩
  unfold atomWrong
  rw [h1]
  refine or_congr_right ?_
  constructor
  · rintro ⟨q, hq, hn, hl, hx⟩
    exact ⟨_, ⟨q, hq, hn, rfl⟩, by simpa using hl, by simpa using hx⟩
  · rintro ⟨ts, ⟨q, hq, hn, rfl⟩, hl, hx⟩
    exact ⟨q, hq, hn, by simpa using hl, by simpa using hx⟩

omit h in
theorem calleeWrong_types (d : DomainAST) (s : Subtask) (x : Finding) : calleeWrong d s x ↔
    ((∀ ts, ¬ CalleeTypes d s.task.name ts) ∧ x = .error (.undefSubtask ⟨s.task.name, s.task.pos⟩)) ∨
      ∃ ts, CalleeTypes d s.task.name ts ∧ s.terms.length ≠ ts.length ∧
        x = .error (.taskArity ⟨s.task.name, ts.length, s.terms.length, s.task.pos⟩) := by
  have h1 : (∀ ps, ¬ Callee d s.task.name ps) ↔ ∀ ts, ¬ CalleeTypes d s.task.name ts :=
    ⟨fun h0 ts ⟨ps, hp, _⟩ => h0 ps hp, fun h0 ps hp => h0 _ ⟨ps, hp, rfl⟩⟩
  unfold calleeWrong
  rw [h1]
  refine or_congr_right ?_
  constructor
  · rintro ⟨ps, hp, hl, hx⟩
    exact ⟨_, ⟨ps, hp, rfl⟩, by simpa using hl, by simpa using hx⟩
  · rintro ⟨ts, ⟨ps, hp, rfl⟩, hl, hx⟩
    exact ⟨ps, hp, by simpa using hl, by simpa using hx⟩

omit h in
/-- What a check says about the declared type of an argument depends only on the types of the parameters. -/
theorem declared_types {D : List Symbol → Prop} {T : List (Option Name) → Prop} (hT : ∀ ts, T ts ↔ ∃ ps, D ps ∧ ps.map (·.ty) = ts)
    (i : Nat) (P : Option Name → Option Name → Prop) :
    (∃ (ps : List Symbol) (f : Symbol) (ty : Option Name), D ps ∧ ps[i]? = some f ∧ P f.ty ty) ↔
      ∃ ts fty, T ts ∧ ts[i]? = some fty ∧ ∃ ty, P fty ty := by
  constructor
  · rintro ⟨ps, f, ty, h1, h2, h3⟩
    exact ⟨_, f.ty, (hT _).mpr ⟨ps, h1, rfl⟩, by simp [h2], ty, h3⟩
  · rintro ⟨ts, fty, h1, h2, ty, h3⟩
    obtain ⟨ps, h4, rfl⟩ := (hT _).mp h1
    rw [List.getElem?_map, Option.map_eq_some_iff] at h2
    obtain ⟨f, h5, rfl⟩ := h2
    exact ⟨ps, f, ty, h4, h5, h3⟩

omit h in
theorem factArg_types (d : DomainAST) (p : ProblemAST) (a : Predicate) (v : Symbol) (i : Nat) (x : Finding) :
    factArg d p a v i x ↔ (Unbound [p.objects, constantsOf d] v.name ∧ x = .error (.undefObject ⟨v.name, v.pos⟩)) ∨
      ∃ ts fty, PredicateTypes d a.name ts ∧ ts[i]? = some fty ∧ ∃ ty : Option Name, ¬ Fits (typesOf d) ty fty ∧
        ((TypeIn [p.objects] v.name ty ∧ x = .error (.predArgType ⟨fty, v.ty, a.name, v.pos⟩)) ∨
         (Unbound [p.objects] v.name ∧ TypeIn [constantsOf d] v.name ty ∧
           x = .error (.predArgType ⟨fty, ty, a.name, v.pos⟩))) := by
  unfold factArg
  refine or_congr_right (declared_types (D := DeclaredFor d a) (T := PredicateTypes d a.name) (fun ts => ?_) i
    fun fty ty => ¬ Fits (typesOf d) ty fty ∧
        ((TypeIn [p.objects] v.name ty ∧ x = .error (.predArgType ⟨fty, v.ty, a.name, v.pos⟩)) ∨
         (Unbound [p.objects] v.name ∧ TypeIn [constantsOf d] v.name ty ∧
           x = .error (.predArgType ⟨fty, ty, a.name, v.pos⟩))))
  unfold PredicateTypes DeclaredFor
  constructor
  · rintro ⟨q, hq, hn, ht⟩; exact ⟨q.vars, ⟨q, hq, hn, rfl⟩, ht⟩
  · rintro ⟨ps, ⟨q, hq, hn, rfl⟩, ht⟩; exact ⟨q, hq, hn, ht⟩

omit h in
theorem initArg_types (d : DomainAST) (p : ProblemAST) (t : InitTN) (s : Subtask) (v : Symbol) (i : Nat) (x : Finding) :
    initArg d p t s v i x ↔
      (Unbound [p.objects, t.params.getD [], constantsOf d] v.name ∧ x = .error (.undefObject ⟨v.name, v.pos⟩)) ∨
      ∃ ts fty, CalleeTypes d s.task.name ts ∧ ts[i]? = some fty ∧ ∃ ty : Option Name, ¬ Fits (typesOf d) ty fty ∧
        ((TypeIn [p.objects, t.params.getD []] v.name ty ∧ x = .error (.taskArgType ⟨fty, ty, s.task.name, v.pos⟩)) ∨
         (Unbound [p.objects, t.params.getD []] v.name ∧ TypeIn [constantsOf d] v.name ty ∧
           x = .error (.predArgType ⟨fty, ty, s.task.name, v.pos⟩))) := by
  unfold initArg
  exact or_congr_right (declared_types (D := Callee d s.task.name) (T := CalleeTypes d s.task.name) (fun ts => Iff.rfl) i
    fun fty ty => ¬ Fits (typesOf d) ty fty ∧
        ((TypeIn [p.objects, t.params.getD []] v.name ty ∧ x = .error (.taskArgType ⟨fty, ty, s.task.name, v.pos⟩)) ∨
         (Unbound [p.objects, t.params.getD []] v.name ∧ TypeIn [constantsOf d] v.name ty ∧
           x = .error (.predArgType ⟨fty, ty, s.task.name, v.pos⟩))))

theorem Spec.SameView.atomWrong : atomWrong d = atomWrong d' := by
  funext a x
  rw [atomWrong_types, atomWrong_types]
  simp only [h.predicates]

theorem Spec.SameView.calleeWrong : calleeWrong d = calleeWrong d' := by
  funext s x
  rw [calleeWrong_types, calleeWrong_types]
  simp only [h.callees]

theorem Spec.SameView.factArg {ft : Option Name} (hs : Slot d ft) (p : ProblemAST) : factArg d p = factArg d' p := by
  funext a v i x
  have h3 := h.unbound hs [p.objects] v.name
  simp only [List.singleton_append] at h3
  rw [factArg_types, factArg_types, h3]
  refine propext (or_congr_right (exists_congr fun ts => exists_congr fun fty => ?_))
  rw [← h.predicates]
  refine and_congr_right fun h4 => and_congr_right fun h5 => ?_
  exact h.view_arg ⟨_, ts, .inl h4, List.mem_of_getElem? h5⟩ _ _ _ _

theorem Spec.SameView.initArg {ft : Option Name} (hs : Slot d ft) (p : ProblemAST) (t : InitTN) : initArg d p t = initArg d' p t := by
  funext s v i x
  have h3 := h.unbound hs [p.objects, t.params.getD []] v.name
  simp only [List.cons_append, List.nil_append] at h3
  rw [initArg_types, initArg_types, h3]
  refine propext (or_congr_right (exists_congr fun ts => exists_congr fun fty => ?_))
  rw [← h.callees]
  refine and_congr_right fun h4 => and_congr_right fun h5 => ?_
  exact h.view_arg ⟨_, ts, .inr h4, List.mem_of_getElem? h5⟩ _ _ _ _

omit h in
/-- Lists of checks that find the same. -/
def FindAlike (A B : List Check) : Prop := ∀ x, FirstFinding A x ↔ FirstFinding B x

omit h in
theorem passes_iff {A : List Check} : (∀ c ∈ A, Passes c) ↔ ∀ x, ¬ FirstFinding A x := by
  constructor
  · rintro h x ⟨pre, c, post, rfl, _, h1⟩
    exact h c (by simp) x h1
  · intro hn
    by_contra hp
    suffices hf : ∃ x, FirstFinding A x by
      obtain ⟨x, hx⟩ := hf
      exact hn x hx
    clear hn
    induction A with
    | nil => simp at hp
    | cons c cs ih =>
      by_cases hc : Passes c
      · obtain ⟨x, pre, c', post, rfl, h1, h2⟩ := ih (by simpa [hc] using hp)
        exact ⟨x, c :: pre, c', post, rfl, by simpa [hc] using h1, h2⟩
      · unfold Passes at hc
        push Not at hc
        obtain ⟨x, hx⟩ := hc
        exact ⟨x, [], c, cs, rfl, by simp, hx⟩

omit h in
theorem FindAlike.append {A A' B B' : List Check} (h1 : FindAlike A A') (h2 : FindAlike B B') : FindAlike (A ++ B) (A' ++ B') := by
  intro x
  rw [firstFinding_append, firstFinding_append, passes_iff, passes_iff, h1 x, h2 x]
  simp only [h1 _]

omit h in
theorem FindAlike.flatMap {α : Type} {F F' : α → List Check} : ∀ (l : List α), (∀ a, FindAlike (F a) (F' a)) →
    FindAlike (l.flatMap F) (l.flatMap F')
  | [], _ => fun _ => Iff.rfl
  | a :: l, h1 => by
    rw [List.flatMap_cons, List.flatMap_cons]
    exact (h1 a).append (FindAlike.flatMap l h1)

omit h in
theorem FindAlike.refl (A : List Check) : FindAlike A A := fun _ => Iff.rfl

omit h in
/-- A check that finds something hides what comes after it. -/
theorem FindAlike.hidden {c : Check} (hc : ¬ Passes c) (A B : List Check) : FindAlike (c :: A) (c :: B) := by
  intro x
  have : ∀ A, FirstFinding (c :: A) x ↔ c x := by
    intro A
    rw [← List.singleton_append, firstFinding_append, firstFinding_one]
    refine ⟨?_, .inl⟩
    rintro (h | ⟨h, _⟩)
    · exact h
    · exact absurd (h c (by simp)) hc
  rw [this, this]

theorem Spec.SameView.factChecks (p : ProblemAST) (a : Predicate) : FindAlike (factChecks d p a) (factChecks d' p a) := by
  unfold Spec.factChecks
  rw [h.atomWrong]
  by_cases hs : ∃ ft, Slot d ft
  · obtain ⟨ft, hs⟩ := hs
    rw [h.factArg hs]
    exact .refl _
  by_cases hp : Passes (Spec.atomWrong d' a)
  · have hv : a.vars = [] := by
      by_contra hv
      rw [← h.atomWrong] at hp
      by_cases hq : ∃ q ∈ d.predicates, q.name = a.name
      · obtain ⟨q, hq, hn⟩ := hq
        refine hp _ (.inr ⟨q, hq, hn, fun hl => ?_, rfl⟩)
        cases hqv : q.vars with
        | nil => rw [hqv] at hl; exact hv (List.length_eq_zero_iff.mp hl)
        | cons v vs => exact hs ⟨v.ty, a.name, _, .inl ⟨q, hq, hn, rfl⟩, by simp [hqv]⟩
      · push Not at hq
        exact hp _ (.inl ⟨hq, rfl⟩)
    rw [hv]
    exact .refl _
  · exact .hidden hp _ _

theorem Spec.SameView.initTaskChecks (p : ProblemAST) (t : InitTN) (s : Subtask) :
    FindAlike (initTaskChecks d p t s) (initTaskChecks d' p t s) := by
  unfold Spec.initTaskChecks
  rw [h.calleeWrong]
  by_cases hs : ∃ ft, Slot d ft
  · obtain ⟨ft, hs⟩ := hs
    rw [h.initArg hs]
    exact .refl _
  by_cases hp : Passes (Spec.calleeWrong d' s)
  · have hv : s.terms = [] := by
      by_contra hv
      rw [← h.calleeWrong] at hp
      by_cases hq : ∃ ps, Callee d s.task.name ps
      · obtain ⟨ps, hq⟩ := hq
        refine hp _ (.inr ⟨ps, hq, fun hl => ?_, rfl⟩)
        cases ps with
        | nil => exact hv (List.length_eq_zero_iff.mp hl)
        | cons v vs => exact hs ⟨v.ty, s.task.name, _, .inr ⟨_, hq, rfl⟩, by simp⟩
      · push Not at hq
        exact hp _ (.inl ⟨hq, rfl⟩)
    rw [hv]
    exact .refl _
  · exact .hidden hp _ _

theorem Spec.SameView.problemChecks (p : ProblemAST) : FindAlike (problemChecks d p) (problemChecks d' p) := by
  unfold Spec.problemChecks
  rw [h.typeUnknown]
  refine (FindAlike.refl _).append ((FindAlike.refl _).append ((FindAlike.flatMap _ (h.factChecks p)).append (.append ?_ ?_)))
  · cases p.initTn with
    | none => exact .refl _
    | some t => exact (FindAlike.refl [_]).append (FindAlike.flatMap _ (h.initTaskChecks p t))
  · cases p.goal with
    | none => exact .refl _
    | some f => exact FindAlike.flatMap _ (h.factChecks p)

end checks

variable [Env] {ord ord' : HashOrd} {f f' g : Bytes} {d d' : DomainAST}

/-- For an accepted domain, what remains to be done is to look at the problem. -/
theorem verify_accepted (hf : Parses f (.domain d)) {ws : List Warning} (h : Accepts ord d ws) (g : Bytes) :
    ∃ N, ∀ n, N ≤ n → verify ord n f (some g) = (parse n g).bind fun
      | .domain _ => .panic .expectedProblem
      | .problem p => verifyProblem (tableOf ws d) p := by
  obtain ⟨N, hN⟩ := hf
  obtain ⟨M, hM⟩ := h
  refine ⟨max N M, fun n hn => ?_⟩
  unfold verify
  simp only [hN n (by omega), R.bind_ok, hM n (by omega)]
  rfl

/-- The same outcome, except that the warnings may differ. -/
def SameOutcome (r r' : R (List Warning)) : Prop := (∃ ws ws', r = .ok ws ∧ r' = .ok ws') ∨ r = r'

omit [Env] in
theorem meets_same {r r' : R (List Warning)} {cs cs' : List Check} (h : Meets r cs) (h' : Meets r' cs') (ha : FindAlike cs cs') :
    SameOutcome r r' := by
  by_cases hp : ∀ c ∈ cs, Passes c
  · obtain ⟨a, rfl⟩ := h.ok.mpr hp
    obtain ⟨b, rfl⟩ := h'.ok.mpr (by rw [passes_iff] at hp ⊢; simpa only [ha _] using hp)
    exact .inl ⟨a, b, rfl, rfl⟩
  · right
    rw [passes_iff] at hp
    push Not at hp
    obtain ⟨x, hx⟩ := hp
    cases x with
    | error e => rw [(h.err e).mpr hx, (h'.err e).mpr ((ha _).mp hx)]
    | crash => rw [h.crash.mpr hx, h'.crash.mpr ((ha _).mp hx)]

theorem same_outcome (hf : Parses f (.domain d)) (hf' : Parses f' (.domain d')) (hok : DomainOk d) (hok' : DomainOk d')
    (h : SameView d d') (g : Bytes) :
    ∃ N, ∀ n, N ≤ n → SameOutcome (verify ord n f (some g)) (verify ord' n f' (some g)) := by
  obtain ⟨ws, hac⟩ := (accepts_iff (ord := ord)).mpr hok
  obtain ⟨ws', hac'⟩ := (accepts_iff (ord := ord')).mpr hok'
  obtain ⟨N, hN⟩ := verify_accepted hf hac g
  obtain ⟨M, hM⟩ := verify_accepted hf' hac' g
  refine ⟨max N M, fun n hn => ?_⟩
  rw [hN n (by omega), hM n (by omega)]
  cases hp : parse n g with
  | timeout => exact .inr rfl
  | err e => exact .inr rfl
  | panic x => exact .inr rfl
  | ok a =>
    cases a with
    | domain _ => exact .inr rfl
    | problem p =>
      have hpos := parsed_positionedP (.of_ok hp)
      exact meets_same (verifyProblem_meets hok hpos) (verifyProblem_meets hok' hpos) (h.problemChecks p)

/-- C90.  With two accepted domains that look the same to problems, every file given as problem is treated alike: the same error
(of the tokenizer, the parser or the analysis), the same crash, no end with both, or accepted with both. -/
theorem C90_view (hf : Parses f (.domain d)) (hf' : Parses f' (.domain d')) (hok : DomainOk d) (hok' : DomainOk d')
    (h : SameView d d') (g : Bytes) :
    (∀ e, Returns ord f (some g) (.err e) ↔ Returns ord' f' (some g) (.err e)) ∧
    (∀ x, Returns ord f (some g) (.panic x) ↔ Returns ord' f' (some g) (.panic x)) ∧
    ((∃ ws, Returns ord f (some g) (.ok ws)) ↔ ∃ ws, Returns ord' f' (some g) (.ok ws)) ∧
    ((∀ n, verify ord n f (some g) = .timeout) ↔ ∀ n, verify ord' n f' (some g) = .timeout) := by
  have key : ∀ {ord ord' : HashOrd} {f f' : Bytes}, (∃ N, ∀ n, N ≤ n →
      SameOutcome (verify ord n f (some g)) (verify ord' n f' (some g))) →
      ∀ {r}, (∀ ws, r ≠ .ok ws) → Returns ord f (some g) r → Returns ord' f' (some g) r := by
    rintro ord ord' f f' ⟨N, hN⟩ r hr ⟨h1, M, hM⟩
    refine ⟨h1, max N M, fun n hn => ?_⟩
    rcases hN n (by omega) with ⟨ws, ws', h2, _⟩ | h2
    · exact absurd ((hM n (by omega)).symm.trans h2) (hr ws)
    · rw [← h2, hM n (by omega)]
  have sym : ∀ {ord ord' : HashOrd} {f f' : Bytes}, (∃ N, ∀ n, N ≤ n →
      SameOutcome (verify ord n f (some g)) (verify ord' n f' (some g))) → ∃ N, ∀ n, N ≤ n →
      SameOutcome (verify ord' n f' (some g)) (verify ord n f (some g)) := by
    rintro ord ord' f f' ⟨N, hN⟩
    refine ⟨N, fun n hn => ?_⟩
    rcases hN n hn with ⟨ws, ws', h1, h2⟩ | h1
    · exact .inl ⟨ws', ws, h2, h1⟩
    · exact .inr h1.symm
  have okk : ∀ {ord ord' : HashOrd} {f f' : Bytes}, (∃ N, ∀ n, N ≤ n →
      SameOutcome (verify ord n f (some g)) (verify ord' n f' (some g))) →
      (∃ ws, Returns ord f (some g) (.ok ws)) → ∃ ws, Returns ord' f' (some g) (.ok ws) := by
    rintro ord ord' f f' ⟨N, hN⟩ ⟨ws, _, M, hM⟩
    have h1 := hM (max N M) (by omega)
    rcases hN (max N M) (by omega) with ⟨_, ws', _, h2⟩ | h2
    · exact ⟨ws', returns_iff.mpr ⟨by simp, _, h2⟩⟩
    · exact ⟨ws, returns_iff.mpr ⟨by simp, _, h2.symm.trans h1⟩⟩
  have hang : ∀ {ord ord' : HashOrd} {f f' : Bytes}, (∃ N, ∀ n, N ≤ n →
      SameOutcome (verify ord n f (some g)) (verify ord' n f' (some g))) →
      (∀ n, verify ord n f (some g) = .timeout) → ∀ n, verify ord' n f' (some g) = .timeout := by
    rintro ord ord' f f' ⟨N, hN⟩ h0 n
    by_contra hc
    obtain ⟨_, M, hM⟩ := returns_iff.mpr ⟨hc, n, rfl⟩
    have h1 := hM (max N M) (by omega)
    rcases hN (max N M) (by omega) with ⟨ws, _, h2, _⟩ | h2
    · rw [h0] at h2; cases h2
    · rw [h0, h1] at h2; exact hc h2.symm
  have h1 := same_outcome (ord := ord) (ord' := ord') hf hf' hok hok' h g
  exact ⟨fun e => ⟨key h1 (by simp), key (sym h1) (by simp)⟩, fun x => ⟨key h1 (by simp), key (sym h1) (by simp)⟩,
    ⟨okk h1, okk (sym h1)⟩, ⟨hang h1, hang (sym h1)⟩⟩

/-- C90.  In particular, with two accepted domains with the same interface every file given as problem is treated alike. -/
theorem C90_same (hf : Parses f (.domain d)) (hf' : Parses f' (.domain d')) (hok : DomainOk d) (hok' : DomainOk d')
    (h : SameInterface d d') (g : Bytes) :
    (∀ e, Returns ord f (some g) (.err e) ↔ Returns ord' f' (some g) (.err e)) ∧
    (∀ x, Returns ord f (some g) (.panic x) ↔ Returns ord' f' (some g) (.panic x)) ∧
    ((∃ ws, Returns ord f (some g) (.ok ws)) ↔ ∃ ws, Returns ord' f' (some g) (.ok ws)) ∧
    ((∀ n, verify ord n f (some g) = .timeout) ↔ ∀ n, verify ord' n f' (some g) = .timeout) :=
  C90_view hf hf' hok hok' h.view g

/-- A name with the types of the parameters. -/
def signature (x : Name) (ps : List Symbol) : Name × List (Option Name) := (x, ps.map (·.ty))

/-- The callables of a domain: tasks and actions. -/
def callables (d : DomainAST) : List (Name × List (Option Name)) :=
  d.actions.map (fun a => signature a.name a.params) ++ d.tasks.map fun t => signature t.name t.params

omit [Env] in
theorem calleeTypes_iff (hn : NoClash d) (x : Name) (ts : List (Option Name)) : CalleeTypes d x ts ↔ (x, ts) ∈ callables d := by
  unfold CalleeTypes callables signature
  rw [List.mem_append, List.mem_map, List.mem_map]
  constructor
  · rintro ⟨ps, hp, rfl⟩
    cases hp with
    | action h1 h2 => exact .inl ⟨_, h1, by rw [h2]⟩
    | task _ h1 h2 => exact .inr ⟨_, h1, by rw [h2]⟩
  · rintro (⟨a, h1, h2⟩ | ⟨t, h1, h2⟩)
    · cases h2; exact ⟨_, .action h1 rfl, rfl⟩
    · cases h2; exact ⟨_, .task (fun a ha h => hn t h1 a ha h.symm) h1 rfl, rfl⟩

omit [Env] in
/-- Without name clashes: the interface is the same if the declarations are, up to their order, lines, parameter names and
bodies, and up to turning tasks into actions and vice versa. -/
theorem sameInterface_of_perm (hn : NoClash d) (hn' : NoClash d')
    (ht : ((typesOf d).map fun s => (s.name, s.ty)).Perm ((typesOf d').map fun s => (s.name, s.ty)))
    (hc : ((constantsOf d).map fun s => (s.name, s.ty)) = ((constantsOf d').map fun s => (s.name, s.ty)))
    (hp : (d.predicates.map fun q => signature q.name q.vars).Perm (d'.predicates.map fun q => signature q.name q.vars))
    (ha : (callables d).Perm (callables d')) : SameInterface d d' := by
  have key : ∀ {l l' : List Symbol}, (l.map fun s => (s.name, s.ty)).Perm (l'.map fun s => (s.name, s.ty)) → ∀ t ty,
      (∃ s ∈ l, s.name = t ∧ s.ty = ty) ↔ ∃ s ∈ l', s.name = t ∧ s.ty = ty := by
    intro l l' h t ty
    have := h.mem_iff (a := (t, ty))
    simpa only [List.mem_map, Prod.mk.injEq] using this
  refine ⟨key ht, fun x ty => ?_, fun x ts => ?_, fun x ts => ?_⟩
  · have key : ∀ {l l' : List Symbol}, (l.map fun s => (s.name, s.ty)) = (l'.map fun s => (s.name, s.ty)) →
        TypeIn [l] x ty → TypeIn [l'] x ty := by
      intro l l' h h1
      cases h1 with
      | outer _ h1 => cases h1
      | here h1 =>
        obtain ⟨pre, post, rfl, rfl, h3⟩ := h1
        rw [List.map_append, List.map_cons] at h
        obtain ⟨pre', l'', rfl, h4, h5⟩ := List.map_eq_append_iff.mp h.symm
        obtain ⟨s', post', rfl, h6, h7⟩ := List.map_eq_cons_iff.mp h5
        rw [Prod.mk.injEq] at h6
        rw [← h6.2, ← h6.1]
        refine .here ⟨pre', post', rfl, rfl, fun y hy hyn => ?_⟩
        have : (y.name, y.ty) ∈ pre.map fun s => (s.name, s.ty) := h4 ▸ List.mem_map.mpr ⟨y, hy, rfl⟩
        obtain ⟨z, hz, hz2⟩ := List.mem_map.mp this
        rw [Prod.mk.injEq] at hz2
        exact h3 z hz (by rw [hz2.1, hyn, h6.1])
    exact ⟨key hc, key hc.symm⟩
  · have := hp.mem_iff (a := (x, ts))
    simpa only [List.mem_map, Prod.mk.injEq, signature, PredicateTypes] using this
  · rw [calleeTypes_iff hn, calleeTypes_iff hn']
    exact ha.mem_iff

/-- Instance.  Two domains with the same interface: in the second one the declarations come in another order, parameters
have other names, the action `go` has become a task and the task `t` an action, and there are no methods. -/
def transportDomain : Bytes := b!"(define (domain d) (:requirements :typing) (:types a - b) (:constants c - a)
 (:predicates (p ?x - b) (q)) (:task t :parameters (?x - a))
 (:action go :parameters (?x - b) :precondition (p ?x) :effect (q))
 (:method m :parameters (?x - a) :task (t ?x) :precondition (p ?x) :ordered-subtasks (and (go ?x) (go c))))\n"

def transportOutline : Bytes := b!"(define (domain other) (:action t :parameters (?z - a)) (:types a - b) (:constants c - a)
 (:predicates (q) (p ?y - b))
 (:task go :parameters (?y - b)))\n"

omit [Env] in
theorem transport_interface : ∃ d d', @Parses Env.plain transportDomain (.domain d) ∧
    @Parses Env.plain transportOutline (.domain d') ∧ DomainOk d ∧ DomainOk d' ∧ SameInterface d d' := by
  obtain ⟨d, d', h1, h2, hn, hn', ht, hc, hp, ha⟩ := @parses_pair Env.plain transportDomain transportOutline 60
    (fun d d' => NoClash d ∧ NoClash d' ∧
      ((typesOf d).map fun s => (s.name, s.ty)).Perm ((typesOf d').map fun s => (s.name, s.ty)) ∧
      ((constantsOf d).map fun s => (s.name, s.ty)) = ((constantsOf d').map fun s => (s.name, s.ty)) ∧
      (d.predicates.map fun q => signature q.name q.vars).Perm (d'.predicates.map fun q => signature q.name q.vars) ∧
      (callables d).Perm (callables d')) (fun d d' => by unfold NoClash; infer_instance) (by decide +kernel)
  refine ⟨d, d', h1, h2, ?_, ?_, sameInterface_of_perm hn hn' ht hc hp ha⟩
  · exact (@returns_domain_iff Env.plain HashOrd.id _ _ h1).mp
      ⟨[], @returns_run Env.plain _ _ _ 60 _ (by decide +kernel) (by simp)⟩
  · exact (@returns_domain_iff Env.plain HashOrd.id _ _ h2).mp
      ⟨[⟨b!"go", 3⟩], @returns_run Env.plain _ _ _ 60 _ (by decide +kernel) (by simp)⟩

/-- A problem that is wrong for both: the object `o` is not of type `a`. -/
def transportProblem : Bytes := b!"(define (problem q) (:domain d) (:objects o - b) (:init (p o))
 (:htn :subtasks (and (go o) (t o))))\n"

/-- The error is found with the second domain by computation, and therefore with the first one by C90. -/
example (ord : HashOrd) : @Returns Env.plain ord transportDomain (some transportProblem)
    (.err (.semantic (.taskArgType ⟨some b!"a", some b!"b", b!"t", 2⟩))) := by
  obtain ⟨d, d', h1, h2, h3, h4, h5⟩ := transport_interface
  exact ((@C90_same Env.plain ord HashOrd.id _ _ d d' h1 h2 h3 h4 h5 transportProblem).1 _).mpr
    (@returns_run Env.plain _ _ _ 60 _ (by decide +kernel) (by simp))

end Verif
