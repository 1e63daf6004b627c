import Verif.Proofs.Problem
import Verif.Proofs.Located
import Verif.Spec.Faults

/-! The analyser runs through the checks of `Spec/Faults.lean` in order. -/

namespace Verif

open Spec

/-! ### Lists of checks -/

theorem firstFinding_append {a b : List Check} {x : Finding} :
    FirstFinding (a ++ b) x ↔ FirstFinding a x ∨ ((∀ c ∈ a, Passes c) ∧ FirstFinding b x) := by
  constructor
  · rintro ⟨pre, c, post, h, h1, h2⟩
    rcases List.append_eq_append_iff.mp h with ⟨as, rfl, h3⟩ | ⟨bs, rfl, h3⟩
    · exact .inr ⟨fun y hy => h1 y (List.mem_append_left _ hy), as, c, post, h3,
        fun y hy => h1 y (List.mem_append_right _ hy), h2⟩
    · cases bs with
      | nil =>
        simp only [List.nil_append] at h3
        exact .inr ⟨fun y hy => h1 y (by simpa using hy), [], c, post, by simp [← h3], by simp, h2⟩
      | cons b' bs =>
        simp only [List.cons_append, List.cons.injEq] at h3
        exact .inl ⟨pre, c, bs, by rw [h3.1], h1, h2⟩
  · rintro (⟨pre, c, post, rfl, h1, h2⟩ | ⟨h, pre, c, post, rfl, h1, h2⟩)
    · exact ⟨pre, c, post ++ b, by simp, h1, h2⟩
    · refine ⟨a ++ pre, c, post, by simp, fun y hy => ?_, h2⟩
      rcases List.mem_append.mp hy with hy | hy
      · exact h y hy
      · exact h1 y hy

theorem not_firstFinding_nil {x : Finding} : ¬ FirstFinding [] x := by
  rintro ⟨pre, c, post, h, _⟩
  simp at h

theorem firstFinding_one {c : Check} {x : Finding} : FirstFinding [c] x ↔ c x := by
  constructor
  · rintro ⟨pre, c', post, h, _, h2⟩
    cases pre with
    | nil => simp only [List.nil_append, List.cons.injEq] at h; rw [h.1]; exact h2
    | cons y pre => simp at h
  · intro h; exact ⟨[], c, [], rfl, by simp, h⟩

/-- The outcome of a function of the analyser is what the checks find first. -/
structure Meets {α : Type} (r : R α) (cs : List Check) : Prop where
  ok : (∃ a, r = .ok a) ↔ ∀ c ∈ cs, Passes c
  err : ∀ e, r = .err (.semantic e) ↔ FirstFinding cs (.error e)
  crash : r = .panic .existsFormula ↔ FirstFinding cs .crash

theorem Meets.nil {α : Type} {a : α} : Meets (.ok a) [] :=
  ⟨by simp, fun e => ⟨by simp, fun h => absurd h not_firstFinding_nil⟩, ⟨by simp, fun h => absurd h not_firstFinding_nil⟩⟩

theorem Meets.bind {α β : Type} {r : R α} {k : α → R β} {A B : List Check} (h : Meets r A)
    (hk : ∀ a, r = .ok a → (∀ c ∈ A, Passes c) → Meets (k a) B) : Meets (r.bind k) (A ++ B) := by
  cases r with
  | ok a =>
    have hA := h.ok.mp ⟨a, rfl⟩
    have hk := hk a rfl hA
    have hn : ∀ x, ¬ FirstFinding A x := by
      rintro x ⟨pre, c, post, rfl, _, h2⟩
      exact hA c (by simp) x h2
    refine ⟨?_, fun e => ?_, ?_⟩
    · rw [R.bind_ok, hk.ok]
      constructor
      · intro h1 c hc
        rcases List.mem_append.mp hc with hc | hc
        · exact hA c hc
        · exact h1 c hc
      · intro h1 c hc; exact h1 c (List.mem_append_right _ hc)
    · rw [R.bind_ok, hk.err, firstFinding_append]
      exact ⟨fun h => .inr ⟨hA, h⟩, fun h => h.elim (fun h => absurd h (hn _)) (·.2)⟩
    · rw [R.bind_ok, hk.crash, firstFinding_append]
      exact ⟨fun h => .inr ⟨hA, h⟩, fun h => h.elim (fun h => absurd h (hn _)) (·.2)⟩
  | err e' =>
    have hA : ¬ ∀ c ∈ A, Passes c := fun h0 => by obtain ⟨a, ha⟩ := h.ok.mpr h0; cases ha
    refine ⟨?_, fun e => ?_, ?_⟩
    · refine ⟨fun ⟨a, ha⟩ => (by cases ha), fun h1 => absurd (fun c hc => h1 c (List.mem_append_left _ hc)) hA⟩
    · rw [firstFinding_append, ← h.err]
      exact ⟨fun h => .inl (by cases h; rfl), fun h => h.elim (fun h => by cases h; rfl) (fun h => absurd h.1 hA)⟩
    · rw [firstFinding_append, ← h.crash]
      exact ⟨fun h => (by cases h), fun h => h.elim (fun h => (by cases h)) (fun h => absurd h.1 hA)⟩
  | panic q =>
    have hA : ¬ ∀ c ∈ A, Passes c := fun h0 => by obtain ⟨a, ha⟩ := h.ok.mpr h0; cases ha
    refine ⟨?_, fun e => ?_, ?_⟩
    · refine ⟨fun ⟨a, ha⟩ => (by cases ha), fun h1 => absurd (fun c hc => h1 c (List.mem_append_left _ hc)) hA⟩
    · rw [firstFinding_append, ← h.err]
      exact ⟨fun h => (by cases h), fun h => h.elim (fun h => (by cases h)) (fun h => absurd h.1 hA)⟩
    · rw [firstFinding_append, ← h.crash]
      exact ⟨fun h => .inl (by cases h; rfl), fun h => h.elim (fun h => by cases h; rfl) (fun h => absurd h.1 hA)⟩
  | timeout =>
    have hA : ¬ ∀ c ∈ A, Passes c := fun h0 => by obtain ⟨a, ha⟩ := h.ok.mpr h0; cases ha
    refine ⟨?_, fun e => ?_, ?_⟩
    · refine ⟨fun ⟨a, ha⟩ => (by cases ha), fun h1 => absurd (fun c hc => h1 c (List.mem_append_left _ hc)) hA⟩
    · rw [firstFinding_append, ← h.err]
      exact ⟨fun h => (by cases h), fun h => h.elim (fun h => (by cases h)) (fun h => absurd h.1 hA)⟩
    · rw [firstFinding_append, ← h.crash]
      exact ⟨fun h => (by cases h), fun h => h.elim (fun h => (by cases h)) (fun h => absurd h.1 hA)⟩

/-- A single check that passes. -/
theorem Meets.pass {α : Type} {a : α} {c : Check} (h : Passes c) : Meets (.ok a) [c] :=
  ⟨by simp [h], fun e => ⟨by simp, fun h' => absurd (firstFinding_one.mp h') (h _)⟩,
    ⟨by simp, fun h' => absurd (firstFinding_one.mp h') (h _)⟩⟩

/-- A check that reports, whatever follows. -/
theorem Meets.fail {α : Type} {e : SemErr} {c : Check} {cs : List Check} (h : ∀ x, c x ↔ x = .error e) :
    Meets (.err (.semantic e) : R α) (c :: cs) := by
  have hp : ¬ Passes c := fun h0 => h0 _ ((h _).mpr rfl)
  have hf : ∀ x, FirstFinding (c :: cs) x ↔ x = .error e := by
    intro x
    rw [show c :: cs = [c] ++ cs from rfl, firstFinding_append, firstFinding_one, h]
    exact ⟨fun h' => h'.elim id fun h' => absurd (h'.1 c (by simp)) hp, .inl⟩
  refine ⟨⟨fun ⟨a, ha⟩ => (by cases ha), fun h0 => absurd (h0 c (by simp)) hp⟩, fun e' => ?_, ?_⟩
  · rw [hf]; simp [eq_comm]
  · rw [hf]; simp

theorem Meets.exists_ {α : Type} {c : Check} {cs : List Check} (h : ∀ x, c x ↔ x = .crash) :
    Meets (.panic .existsFormula : R α) (c :: cs) := by
  have hp : ¬ Passes c := fun h0 => h0 _ ((h _).mpr rfl)
  have hf : ∀ x, FirstFinding (c :: cs) x ↔ x = .crash := by
    intro x
    rw [show c :: cs = [c] ++ cs from rfl, firstFinding_append, firstFinding_one, h]
    exact ⟨fun h' => h'.elim id fun h' => absurd (h'.1 c (by simp)) hp, .inl⟩
  refine ⟨⟨fun ⟨a, ha⟩ => (by cases ha), fun h0 => absurd (h0 c (by simp)) hp⟩, fun e' => ?_, ?_⟩
  · rw [hf]; simp
  · rw [hf]; simp

/-- A check that passes, followed by others. -/
theorem Meets.cons {α : Type} {r : R α} {c : Check} {cs : List Check} (h : Passes c) (hr : Meets r cs) : Meets r (c :: cs) :=
  (Meets.pass (a := ()) h).bind (k := fun _ => r) fun _ _ _ => hr

theorem Meets.ok_of {α : Type} {r : R α} {cs : List Check} (h : Meets r cs) {a : α} (ha : r = .ok a) : ∀ c ∈ cs, Passes c :=
  h.ok.mp ⟨a, ha⟩

/-! ### Declarations -/

theorem scanDup_meets {α : Type} (kp : α → Name × Nat) (mk : DupErr → SemErr) (check : α → R Unit)
    (cs : α → List Check) : ∀ (l before : List α), (∀ a ∈ l, Meets (check a) (cs a)) →
      (before.map fun a => (kp a).1).Nodup →
      Meets (scanDup kp mk check (before.reverse.map kp) l) (forEach (fun b a => nameAgain mk kp b a :: cs a) before l)
  | [], _, _, _ => by rw [scanDup, forEach]; exact .nil
  | a :: as, before, hc, hn => by
    rw [scanDup, forEach]
    have hn' : ((before.reverse.map kp).map (·.1)).Nodup := by
      simpa [List.map_reverse, Function.comp_def] using hn
    cases h : seenPos (before.reverse.map kp) (kp a).1 with
    | some q =>
      obtain hm := (seenPos_some hn').mp h
      refine .fail fun x => ?_
      obtain ⟨b, hb, hbq⟩ := List.mem_map.mp hm
      rw [List.mem_reverse] at hb
      constructor
      · rintro ⟨b', hb', h1, rfl⟩
        have : b' = b := List.inj_on_of_nodup_map hn hb' hb (by simp only [h1, hbq])
        rw [this, hbq]
      · rintro rfl
        exact ⟨b, hb, by rw [hbq], by rw [hbq]⟩
    | none =>
      have hno := seenPos_none.mp h
      have hno' : ∀ b ∈ before, (kp b).1 ≠ (kp a).1 := by
        intro b hb he
        exact hno (by rw [List.map_map]; exact List.mem_map.mpr ⟨b, by simpa using hb, he⟩)
      have h1 := (hc a (by simp)).bind (k := fun _ => scanDup kp mk check (kp a :: before.reverse.map kp) as)
        (B := forEach (fun b a => nameAgain mk kp b a :: cs a) (before ++ [a]) as) (fun _ _ _ => by
          have := scanDup_meets kp mk check cs as (before ++ [a]) (fun x hx => hc x (by simp [hx])) (by
            rw [List.map_append]
            exact nodup_snoc.mpr ⟨hn, by
              intro hm
              obtain ⟨b, hb, he⟩ := List.mem_map.mp hm
              exact hno' b hb he⟩)
          simpa using this)
      refine Meets.cons (c := nameAgain mk kp before a) ?_ h1
      rintro x ⟨b, hb, he, _⟩
      exact hno' b hb he

theorem scanDup_meets_nil {α : Type} (kp : α → Name × Nat) (mk : DupErr → SemErr) (check : α → R Unit)
    (cs : α → List Check) (l : List α) (h : ∀ a ∈ l, Meets (check a) (cs a)) :
    Meets (scanDup kp mk check [] l) (forEach (fun b a => nameAgain mk kp b a :: cs a) [] l) :=
  scanDup_meets kp mk check cs l [] h (by simp)

/-- If no declaration repeats a name then the names are different. -/
theorem forEach_nodup {α : Type} (kp : α → Name × Nat) (mk : DupErr → SemErr) (cs : α → List Check) :
    ∀ (l before : List α), (before.map fun a => (kp a).1).Nodup →
      (∀ c ∈ forEach (fun b a => nameAgain mk kp b a :: cs a) before l, Passes c) →
      ((before ++ l).map fun a => (kp a).1).Nodup
  | [], before, hn, _ => by simpa using hn
  | a :: as, before, hn, h => by
    have h1 : Passes (nameAgain mk kp before a) := h _ (by simp [forEach])
    have := forEach_nodup kp mk cs as (before ++ [a]) (by
      rw [List.map_append]
      refine nodup_snoc.mpr ⟨hn, fun hm => ?_⟩
      obtain ⟨b, hb, he⟩ := List.mem_map.mp hm
      exact h1 _ ⟨b, hb, he, rfl⟩) (fun c hc => h c (by rw [forEach]; exact List.mem_append_right _ hc))
    simpa using this

theorem forEach_nodup_nil {α : Type} {kp : α → Name × Nat} {mk : DupErr → SemErr} {cs : α → List Check} {l : List α}
    (h : ∀ c ∈ forEach (fun b a => nameAgain mk kp b a :: cs a) [] l, Passes c) : (l.map fun a => (kp a).1).Nodup := by
  simpa using forEach_nodup kp mk cs l [] (by simp) h

theorem checkDupReqs_meets : ∀ (l before : List Req) (seen : List Req), (∀ r, r ∈ seen ↔ r ∈ before) →
    Meets (checkDupReqs seen l) (forEach (fun b r => [reqAgain b r]) before l)
  | [], _, _, _ => by rw [checkDupReqs, forEach]; exact .nil
  | r :: rs, before, seen, hs => by
    rw [checkDupReqs, forEach]
    split
    · next h =>
      refine .fail fun x => ?_
      simp [reqAgain, (hs r).mp h]
    · next h =>
      refine .cons (fun x hx => h ((hs r).mpr hx.1)) ?_
      exact checkDupReqs_meets rs (before ++ [r]) (r :: seen) (fun x => by simp [hs, or_comm])

theorem checkDupParams_meets (l : List Symbol) : Meets (checkDupParams [] l) (paramNames l) := by
  rw [checkDupParams_scan]
  exact scanDup_meets_nil (fun s : Symbol => (s.name, s.pos)) .dupParameter (fun _ => .ok ()) (fun _ => []) l
    fun _ _ => .nil

theorem paramNames_nodup {l : List Symbol} (h : ∀ c ∈ paramNames l, Passes c) : (l.map (·.name)).Nodup :=
  forEach_nodup_nil (kp := symLine) (mk := .dupParameter) (cs := fun _ => []) h

variable {d : DomainAST}

theorem verify_meets : Meets (TypeGraph.new d.types).verify [typeCycle d] := by
  cases h : (TypeGraph.new d.types).verify with
  | ok a =>
    have := (verify_ok d).mp h
    exact .pass fun x ⟨⟨t, ht⟩, _⟩ => this t ht
  | err e =>
    obtain ⟨rfl, h1⟩ := (verify_err d e).mp h
    obtain ⟨t, ht⟩ := cyclic_of_not h1
    exact .fail fun x => ⟨fun h => h.2, fun h => ⟨⟨t, ht⟩, h⟩⟩
  | panic q => exact absurd h (verify_panic _ q)
  | timeout => unfold TypeGraph.verify at h; split at h <;> cases h

theorem checkDecls_meets : ∀ (l : List Symbol), Located l →
    Meets ((TypeGraph.new d.types).checkDecls l) (l.map (typeUnknown d))
  | [], _ => by rw [TypeGraph.checkDecls]; exact .nil
  | s :: ss, hl => by
    have ih := checkDecls_meets ss fun x hx => hl x (List.mem_cons_of_mem _ hx)
    rw [TypeGraph.checkDecls, List.map_cons]
    cases ht : s.ty with
    | none =>
      refine .cons ?_ ih
      rintro x ⟨t, l, h1, _⟩
      rw [ht] at h1; cases h1
    | some t =>
      simp only
      split
      · next h =>
        rw [new_nodes] at h
        refine .cons ?_ ih
        rintro x ⟨t', l, h1, _, h2, _⟩
        rw [ht] at h1; cases h1; exact h2 h
      · next h =>
        rw [new_nodes] at h
        obtain ⟨l, hp⟩ := Option.isSome_iff_exists.mp (hl s (by simp) (by rw [ht]; rfl))
        rw [hp]
        refine .fail fun x => ?_
        unfold typeUnknown
        rw [ht, hp]
        simp [h]

/-! ### Formulas -/

theorem predicate_meets (hn : (d.predicates.map (·.name)).Nodup) (p : Predicate) :
    Meets (match d.predicates.find? fun q => p.name = q.name with
      | some q => if p.vars.length = q.vars.length then .ok ()
        else semErr (.predArity ⟨p.name, q.vars.length, p.vars.length, p.pos⟩)
      | none => semErr (.undefPredicate ⟨p.name, p.pos⟩) : R Unit) [atomWrong d p] := by
  rw [find_swap (fun q : Predicate => q.name)]
  cases h : d.predicates.find? fun q => decide (q.name = p.name) with
  | some q =>
    obtain ⟨h1, h2⟩ := (find_unique hn).mp h
    have hu : ∀ q' ∈ d.predicates, q'.name = p.name → q' = q := fun q' hq' he =>
      List.inj_on_of_nodup_map hn hq' h1 (he.trans h2.symm)
    simp only
    split
    · next hl =>
      refine .pass ?_
      rintro x (⟨h3, _⟩ | ⟨q', hq', he, h3, _⟩)
      · exact h3 q h1 h2
      · rw [hu q' hq' he] at h3; exact h3 hl
    · next hl =>
      refine .fail fun x => ?_
      constructor
      · rintro (⟨h3, _⟩ | ⟨q', hq', he, h3, rfl⟩)
        · exact absurd h2 (h3 q h1)
        · rw [hu q' hq' he]
      · rintro rfl; exact .inr ⟨q, h1, h2, hl, rfl⟩
  | none =>
    have h1 := find_none.mp h
    refine .fail fun x => ?_
    constructor
    · rintro (⟨_, rfl⟩ | ⟨q', hq', he, _⟩)
      · rfl
      · exact absurd he (h1 q' hq')
    · rintro rfl; exact .inl ⟨h1, rfl⟩

mutual

theorem checkPredDecls_meets (hn : (d.predicates.map (·.name)).Nodup) : ∀ (f : Formula) (b : Bool),
    Meets (checkPredDecls d.predicates f) ((pieces b f).map (pieceWrong d))
  | .empty, b => by rw [checkPredDecls, pieces]; exact .nil
  | .equals .., b => by rw [checkPredDecls, pieces]; exact .nil
  | .atom p, b => by
    rw [checkPredDecls, pieces]
    have : (([if b = true then Occurrence.quantified p else Occurrence.free p] : List Occurrence).map (pieceWrong d)) = [atomWrong d p] := by
      cases b <;> rfl
    rw [this]
    exact predicate_meets hn p
  | .not f, b => by rw [checkPredDecls, pieces]; exact checkPredDecls_meets hn f b
  | .weighted _ f, b => by rw [checkPredDecls, pieces]; exact checkPredDecls_meets hn f b
  | .and fs, b => by rw [checkPredDecls, pieces]; exact checkPredDeclsList_meets hn fs b
  | .or fs, b => by rw [checkPredDecls, pieces]; exact checkPredDeclsList_meets hn fs b
  | .xor fs, b => by rw [checkPredDecls, pieces]; exact checkPredDeclsList_meets hn fs b
  | .imply .., b => by rw [checkPredDecls, pieces, List.map_cons]; exact .exists_ fun x => Iff.rfl
  | .forall_ _ f, b => by rw [checkPredDecls, pieces]; exact checkPredDecls_meets hn f true
  | .exists_ .., b => by rw [checkPredDecls, pieces, List.map_cons]; exact .exists_ fun x => Iff.rfl

theorem checkPredDeclsList_meets (hn : (d.predicates.map (·.name)).Nodup) : ∀ (fs : List Formula) (b : Bool),
    Meets (checkPredDeclsList d.predicates fs) ((piecesAll b fs).map (pieceWrong d))
  | [], b => by rw [checkPredDeclsList, piecesAll]; exact .nil
  | f :: fs, b => by
    rw [checkPredDeclsList, piecesAll, List.map_append]
    exact (checkPredDecls_meets hn f b).bind fun _ _ _ => checkPredDeclsList_meets hn fs b

end

/-- The free atoms among pieces. -/
def freeOf (l : List Occurrence) : List Predicate := l.filterMap fun | .free p => some p | _ => none

theorem freeOf_append (a b : List Occurrence) : freeOf (a ++ b) = freeOf a ++ freeOf b := by
  simp [freeOf]

mutual

theorem freeOf_below : ∀ f : Formula, freeOf (pieces true f) = []
  | .empty | .equals .. | .atom _ => by rw [pieces]; rfl
  | .not f | .weighted _ f | .forall_ _ f => by rw [pieces]; exact freeOf_below f
  | .and fs | .or fs | .xor fs => by rw [pieces]; exact freeOf_belowAll fs
  | .imply ps qs => by
    rw [pieces]
    have := freeOf_append (piecesAll true ps) (piecesAll true qs)
    rw [freeOf_belowAll ps, freeOf_belowAll qs] at this
    exact this
  | .exists_ _ f => by rw [pieces]; exact freeOf_below f

theorem freeOf_belowAll : ∀ fs : List Formula, freeOf (piecesAll true fs) = []
  | [] => by rw [piecesAll]; rfl
  | f :: fs => by rw [piecesAll, freeOf_append, freeOf_below f, freeOf_belowAll fs]; rfl

end

mutual

theorem freeAtoms_eq : ∀ f : Formula, freeOf (pieces false f) = f.propPreds
  | .empty | .equals .. | .atom _ => by rw [pieces, Formula.propPreds]; rfl
  | .not f | .weighted _ f => by rw [pieces, Formula.propPreds]; exact freeAtoms_eq f
  | .and fs | .or fs | .xor fs => by rw [pieces, Formula.propPreds]; exact freeAtomsAll_eq fs
  | .imply ps qs => by
    rw [pieces, Formula.propPreds, ← freeAtomsAll_eq ps, ← freeAtomsAll_eq qs, ← freeOf_append]; rfl
  | .forall_ _ f => by rw [pieces, Formula.propPreds]; exact freeOf_below f
  | .exists_ _ f => by rw [pieces, Formula.propPreds]; exact freeOf_below f

theorem freeAtomsAll_eq : ∀ fs : List Formula, freeOf (piecesAll false fs) = Formula.propPredsList fs
  | [] => by rw [piecesAll, Formula.propPredsList]; rfl
  | f :: fs => by rw [piecesAll, Formula.propPredsList, freeOf_append, freeAtoms_eq f, freeAtomsAll_eq fs]

end

theorem freeAtoms_propPreds (f : Formula) : freeAtoms f = f.propPreds := freeAtoms_eq f

theorem argTypes_meets {params constants : List Symbol} (hp : (params.map (·.name)).Nodup) : ∀ vs : List Symbol,
    Meets (argTypes params constants vs) (vs.map (notBound [params, constants]))
  | [] => by rw [argTypes]; exact .nil
  | v :: vs => by
    rw [argTypes_step hp, List.map_cons]
    cases h : findScope [params, constants] v.name with
    | some s =>
      have hb : Passes (notBound [params, constants] v) := by
        rintro x ⟨hu, _⟩
        rw [(findScope_none _ _).mpr hu] at h; cases h
      refine .cons hb ?_
      have := (argTypes_meets (constants := constants) hp vs).bind (k := fun r => .ok ((v, s.ty) :: r)) (B := [])
        fun _ _ _ => .nil
      simpa using this
    | none =>
      have hu := (findScope_none _ _).mp h
      exact .fail fun x => ⟨fun h => h.2, fun h => ⟨hu, h⟩⟩

/-- The types of the arguments, from number `k` on. -/
theorem checkArgTypes_meets {params : List Symbol} {declared : List Symbol → Prop} {mk : TypeErr → SemErr}
    {full : List Symbol} (hd : ∀ ps, declared ps ↔ ps = full) : ∀ (vs : List Symbol) (r : List (Symbol × Option Name))
      (k : Nat) (es : List Symbol), full.drop k = es → vs.length = es.length →
      List.Forall₂ (fun v q => q.1 = v ∧ TypeIn [params, constantsOf d] v.name q.2) vs r →
      Meets (checkArgTypes (TypeGraph.new d.types) mk r (es.map (·.ty)))
        ((vs.zipIdx k).map fun v => argMisfit d [params, constantsOf d] declared mk v.1 v.2)
  | [], r, k, es, _, hl, hr => by
    cases hr
    rw [checkArgTypes]
    · exact .nil
    · simp
  | v :: vs, _, k, [], _, hl, _ => by simp at hl
  | v :: vs, _, k, e :: es, hk, hl, .cons (b := q) (l₂ := r) hq hr => by
    obtain ⟨v', ty⟩ := q
    obtain ⟨rfl, hty⟩ := hq
    change TypeIn [params, constantsOf d] v'.name ty at hty
    have ih := checkArgTypes_meets hd (mk := mk) vs r (k + 1) es (by
      rw [← List.drop_drop, hk, List.drop_one, List.tail_cons]) (by simpa using hl) hr
    have he : full[k]? = some e := by
      have := congrArg (fun l : List Symbol => l[0]?) hk
      simpa using this
    rw [List.map_cons, checkArgTypes, List.zipIdx_cons, List.map_cons]
    have key : ∀ x, argMisfit d [params, constantsOf d] declared mk v' k x ↔
        ¬ Fits (typesOf d) ty e.ty ∧ x = .error (mk ⟨e.ty, ty, v'.name, v'.pos⟩) := by
      intro x
      constructor
      · rintro ⟨ps, f, ty', h1, h2, h3, h4, h5⟩
        rw [(hd ps).mp h1, he] at h2
        cases h2
        rw [hty.det h3]
        exact ⟨h4, h5⟩
      · rintro ⟨h1, h2⟩
        exact ⟨full, e, ty, (hd _).mpr rfl, he, hty, h1, h2⟩
    split
    · next h =>
      rw [consistent_iff] at h
      exact .cons (fun x hx => ((key x).mp hx).1 h) ih
    · next h =>
      rw [consistent_iff] at h
      exact .fail fun x => by rw [key]; simp [h]

/-- The predicate of the atom is declared with its number of arguments. -/
def AtomRight (d : DomainAST) (p : Predicate) : Prop :=
  ∃ q ∈ d.predicates, q.name = p.name ∧ p.vars.length = q.vars.length

theorem atomRight_of {p : Predicate} (h : Passes (atomWrong d p)) : AtomRight d p := by
  by_cases h1 : ∃ q ∈ d.predicates, q.name = p.name
  · obtain ⟨q, hq, he⟩ := h1
    refine ⟨q, hq, he, ?_⟩
    by_contra hl
    exact h _ (.inr ⟨q, hq, he, hl, rfl⟩)
  · push Not at h1
    exact absurd (.inl ⟨h1, rfl⟩) (h _)

theorem checkAtom_meets (hn : (d.predicates.map (·.name)).Nodup) {params : List Symbol}
    (hp : (params.map (·.name)).Nodup) {p : Predicate} (ha : AtomRight d p) :
    Meets (checkAtom (TypeGraph.new d.types) params (constantsOf d) d.predicates p) (atomArgs d params p) := by
  obtain ⟨q, hq, he, hl⟩ := ha
  unfold checkAtom
  rw [(find_unique hn).mpr ⟨hq, he⟩]
  unfold atomArgs
  refine (argTypes_meets hp p.vars).bind fun found hfound _ => ?_
  have hlen := argTypes_length hfound
  simp only [hlen, hl, ne_eq, not_true_eq_false, if_false]
  refine checkArgTypes_meets (full := q.vars) (fun ps => ?_) p.vars found 0 q.vars rfl hl ((argTypes_ok hp).mp hfound)
  constructor
  · rintro ⟨q', hq', he', rfl⟩
    rw [List.inj_on_of_nodup_map hn hq' hq (he'.trans he.symm)]
  · rintro rfl; exact ⟨q, hq, he, rfl⟩

theorem checkAtoms_meets (hn : (d.predicates.map (·.name)).Nodup) {params : List Symbol}
    (hp : (params.map (·.name)).Nodup) : ∀ l : List Predicate, (∀ p ∈ l, AtomRight d p) →
    Meets (checkAtoms (TypeGraph.new d.types) params (constantsOf d) d.predicates l) (l.flatMap (atomArgs d params))
  | [], _ => by rw [checkAtoms]; exact .nil
  | p :: ps, h => by
    rw [checkAtoms, List.flatMap_cons]
    exact (checkAtom_meets hn hp (h p (by simp))).bind fun _ _ _ => checkAtoms_meets hn hp ps fun x hx => h x (by simp [hx])

theorem optFormula_meets (hn : (d.predicates.map (·.name)).Nodup) {params : List Symbol}
    (hp : (params.map (·.name)).Nodup) (hl : Located params) : ∀ f : Option Formula,
    Meets (checkOptFormula (TypeGraph.new d.types) d.predicates params (constantsOf d) f) (optFormulaChecks d params f)
  | none => by rw [checkOptFormula]; exact .nil
  | some f => by
    rw [checkOptFormula, optFormulaChecks, formulaChecks, List.append_assoc]
    refine (checkPredDecls_meets hn f false).bind fun _ _ hA => ?_
    unfold checkFormula
    refine (checkDecls_meets params hl).bind fun _ _ _ => ?_
    rw [freeAtoms_propPreds]
    refine checkAtoms_meets hn hp _ fun p hmem => atomRight_of (hA _ ?_)
    rw [← freeAtoms_propPreds, freeAtoms, List.mem_filterMap] at hmem
    obtain ⟨x, hx, he⟩ := hmem
    refine List.mem_map.mpr ⟨x, hx, ?_⟩
    cases x <;> simp at he
    subst he; rfl

/-! ### Actions and methods -/

theorem checkAction_meets (hn : (d.predicates.map (·.name)).Nodup) {a : Action} (hl : Located a.params) :
    Meets (checkAction (TypeGraph.new d.types) d.predicates (constantsOf d) a) (actionChecks d a) :=
  (checkDupParams_meets a.params).bind fun _ _ hp =>
    (optFormula_meets hn (paramNames_nodup hp) hl a.pre).bind fun _ _ _ => optFormula_meets hn (paramNames_nodup hp) hl a.eff

theorem checkOrdering_meets {h : HTN} (hl : OrderLocated h) : Meets (checkOrdering h) [orderCycle h] := by
  cases hc : checkOrdering h with
  | ok a =>
    have := (checkOrdering_ok h).mp hc
    exact .pass fun x ⟨_, _, ⟨t, ht⟩, _⟩ => this t ht
  | err e =>
    obtain ⟨h1, l, h2, rfl⟩ := (checkOrdering_err h e).mp hc
    obtain ⟨t, ht⟩ := cyclic_of_not h1
    refine .fail fun x => ⟨?_, ?_⟩
    · rintro ⟨l', hl', _, rfl⟩
      rw [h2] at hl'; cases hl'; rfl
    · rintro rfl; exact ⟨l, h2, ⟨t, ht⟩, rfl⟩
  | panic q => exact absurd hc (checkOrdering_panic h hl q)
  | timeout => exact absurd hc (checkOrdering_timeout h)

variable {ord : HashOrd}

theorem checkMethodTask_meets (ht : (d.tasks.map (·.name)).Nodup) (m : Method) :
    Meets (checkMethodTask d.tasks m) [methodTaskWrong d m] := by
  unfold checkMethodTask
  rw [find_swap (fun q : Task => q.name)]
  cases h : d.tasks.find? fun q => decide (q.name = m.task.name) with
  | some q =>
    obtain ⟨h1, h2⟩ := (find_unique ht).mp h
    have hu : ∀ q' ∈ d.tasks, q'.name = m.task.name → q' = q := fun q' hq' he =>
      List.inj_on_of_nodup_map ht hq' h1 (he.trans h2.symm)
    simp only
    split
    · next hl =>
      refine .fail fun x => ?_
      constructor
      · rintro (⟨h3, _⟩ | ⟨q', hq', he, h3, rfl⟩)
        · exact absurd h2 (h3 q h1)
        · rw [hu q' hq' he]
      · rintro rfl; exact .inr ⟨q, h1, h2, hl, rfl⟩
    · next hl =>
      refine .pass ?_
      rintro x (⟨h3, _⟩ | ⟨q', hq', he, h3, _⟩)
      · exact h3 q h1 h2
      · rw [hu q' hq' he] at h3; exact hl h3
  | none =>
    have h1 := find_none.mp h
    refine .fail fun x => ?_
    constructor
    · rintro (⟨_, rfl⟩ | ⟨q', hq', he, _⟩)
      · rfl
      · exact absurd he (h1 q' hq')
    · rintro rfl; exact .inl ⟨h1, rfl⟩

/-- The arguments of the task of a method, whose task is known to be declared with its number of arguments. -/
theorem methodArgs_meets (ht : (d.tasks.map (·.name)).Nodup) {m : Method} (hp : (m.params.map (·.name)).Nodup)
    (hok : Passes (methodTaskWrong d m)) :
    Meets (taskConsistent (TypeGraph.new d.types) m.task m.taskTerms m.params (constantsOf d) (arrange ord [10] d.tasks) [])
      (m.taskTerms.map (notBound [m.params, constantsOf d]) ++
        m.taskTerms.zipIdx.map fun v => argMisfit d [m.params, constantsOf d]
          (fun ps => ∃ t ∈ d.tasks, t.name = m.task.name ∧ ps = t.params) .taskArgType v.1 v.2) := by
  have h1 : ∃ t ∈ d.tasks, t.name = m.task.name := by
    by_contra h
    push Not at h
    exact hok _ (.inl ⟨h, rfl⟩)
  obtain ⟨t, h1, h2⟩ := h1
  have hl : m.taskTerms.length = t.params.length := by
    by_contra hl
    exact hok _ (.inr ⟨t, h1, h2, hl, rfl⟩)
  unfold taskConsistent
  refine (argTypes_meets hp m.taskTerms).bind fun found hfound _ => ?_
  have hlen := argTypes_length hfound
  rw [find_perm ht (arrange_perm ord [10] d.tasks), (find_unique ht).mpr ⟨h1, h2⟩]
  simp only [List.find?_nil, hlen, hl, ne_eq, not_true_eq_false, if_false]
  refine checkArgTypes_meets (full := t.params) (fun ps => ?_) m.taskTerms found 0 t.params rfl hl
    ((argTypes_ok hp).mp hfound)
  constructor
  · rintro ⟨q', hq', he', rfl⟩
    rw [List.inj_on_of_nodup_map ht hq' h1 (he'.trans h2.symm)]
  · rintro rfl; exact ⟨t, h1, h2, rfl⟩

theorem callee_unique (ha : (d.actions.map (·.name)).Nodup) (ht : (d.tasks.map (·.name)).Nodup) {x : Name}
    {ps : List Symbol} (h : Callee d x ps) (qs : List Symbol) : Callee d x qs ↔ qs = ps := by
  refine ⟨fun h' => ?_, fun h' => h' ▸ h⟩
  rw [callee_iff ha ht] at h h'
  rcases h with ⟨a, h1, rfl⟩ | ⟨h0, a, h1, rfl⟩ <;> rcases h' with ⟨b, h2, rfl⟩ | ⟨h3, b, h2, rfl⟩
  · rw [h1] at h2; cases h2; rfl
  · rw [h1] at h3; cases h3
  · rw [h0] at h2; cases h2
  · rw [h1] at h2; cases h2; rfl

theorem callee_fail {s : Subtask} (h : ∀ ps, ¬ Callee d s.task.name ps) (x : Finding) :
    calleeWrong d s x ↔ x = .error (.undefSubtask ⟨s.task.name, s.task.pos⟩) := by
  constructor
  · rintro (⟨_, rfl⟩ | ⟨ps, h1, _⟩)
    · rfl
    · exact absurd h1 (h ps)
  · rintro rfl; exact .inl ⟨h, rfl⟩

theorem callee_arity (ha : (d.actions.map (·.name)).Nodup) (ht : (d.tasks.map (·.name)).Nodup) {s : Subtask}
    {ps : List Symbol} (h : Callee d s.task.name ps) (hl : s.terms.length ≠ ps.length) (x : Finding) :
    calleeWrong d s x ↔ x = .error (.taskArity ⟨s.task.name, ps.length, s.terms.length, s.task.pos⟩) := by
  constructor
  · rintro (⟨h1, _⟩ | ⟨qs, h1, _, rfl⟩)
    · exact absurd h (h1 ps)
    · rw [(callee_unique ha ht h qs).mp h1]
  · rintro rfl; exact .inr ⟨ps, h, hl, rfl⟩

theorem callee_pass (ha : (d.actions.map (·.name)).Nodup) (ht : (d.tasks.map (·.name)).Nodup) {s : Subtask}
    {ps : List Symbol} (h : Callee d s.task.name ps) (hl : s.terms.length = ps.length) : Passes (calleeWrong d s) := by
  rintro x (⟨h1, _⟩ | ⟨qs, h1, h2, _⟩)
  · exact h1 ps h
  · rw [(callee_unique ha ht h qs).mp h1] at h2; exact h2 hl

theorem subtask_meets (ha : (d.actions.map (·.name)).Nodup) (ht : (d.tasks.map (·.name)).Nodup) {params : List Symbol}
    (hp : (params.map (·.name)).Nodup) (s : Subtask) :
    Meets (taskConsistent (TypeGraph.new d.types) s.task s.terms params (constantsOf d) (arrange ord [10] d.tasks)
      (arrange ord [11] d.actions)) (subtaskChecks d params s) := by
  unfold taskConsistent subtaskChecks
  refine (argTypes_meets hp s.terms).bind fun found hfound _ => ?_
  have hlen := argTypes_length hfound
  have hty := (argTypes_ok hp).mp hfound
  rw [find_perm ha (arrange_perm ord [11] d.actions), find_perm ht (arrange_perm ord [10] d.tasks)]
  have args : ∀ {ps : List Symbol}, Callee d s.task.name ps → s.terms.length = ps.length →
      Meets (checkArgTypes (TypeGraph.new d.types) .taskArgType found (ps.map (·.ty)))
        (calleeWrong d s :: s.terms.zipIdx.map fun v =>
          argMisfit d [params, constantsOf d] (Callee d s.task.name) .taskArgType v.1 v.2) := fun h hl =>
    .cons (callee_pass ha ht h hl) (checkArgTypes_meets (callee_unique ha ht h) s.terms found 0 _ rfl hl hty)
  cases h1 : d.actions.find? fun a => decide (a.name = s.task.name) with
  | some a =>
    have hc : Callee d s.task.name a.params := (callee_iff ha ht).mpr (.inl ⟨a, h1, rfl⟩)
    simp only
    split
    · next hl => exact .fail (callee_arity ha ht hc hl)
    · next hl => exact args hc (not_not.mp hl)
  | none =>
    simp only
    cases h2 : d.tasks.find? fun a => decide (a.name = s.task.name) with
    | some t =>
      have hc : Callee d s.task.name t.params := (callee_iff ha ht).mpr (.inr ⟨h1, t, h2, rfl⟩)
      simp only [hlen]
      split
      · next hl => exact .fail (callee_arity ha ht hc hl)
      · next hl => exact args hc (not_not.mp hl)
    | none =>
      refine .fail (callee_fail fun ps hc => ?_)
      rw [callee_iff ha ht, h1, h2] at hc
      rcases hc with ⟨_, h, _⟩ | ⟨_, _, h, _⟩ <;> cases h

theorem checkSubtasks_meets (ha : (d.actions.map (·.name)).Nodup) (ht : (d.tasks.map (·.name)).Nodup)
    {params : List Symbol} (hp : (params.map (·.name)).Nodup) : ∀ l : List Subtask,
    Meets (checkSubtasks (TypeGraph.new d.types) params (constantsOf d) (arrange ord [10] d.tasks)
      (arrange ord [11] d.actions) l) (l.flatMap (subtaskChecks d params))
  | [] => by rw [checkSubtasks]; exact .nil
  | s :: ss => by
    rw [checkSubtasks, List.flatMap_cons]
    exact (subtask_meets ha ht hp s).bind fun _ _ _ => checkSubtasks_meets ha ht hp ss

theorem checkMethod_meets (hn : (d.predicates.map (·.name)).Nodup) (ha : (d.actions.map (·.name)).Nodup)
    (ht : (d.tasks.map (·.name)).Nodup) {m : Method} (hl : Located m.params) (ho : OrderLocated m.tn) :
    Meets (methodCheck ord d m) (methodChecks d m) := by
  refine (checkDupParams_meets m.params).bind fun _ _ hp => ?_
  have hp := paramNames_nodup hp
  refine (optFormula_meets hn hp hl m.pre).bind fun _ _ _ => ?_
  refine (checkMethodTask_meets ht m).bind (B := _) fun _ _ hm => ?_
  change Meets _ (_ ++ (_ ++ (_ ++ _)))
  rw [← List.append_assoc]
  refine (methodArgs_meets ht hp (hm _ (by simp))).bind fun _ _ _ => ?_
  exact (checkSubtasks_meets ha ht hp m.tn.subtasks).bind fun _ _ _ => checkOrdering_meets ho

/-! ### Domains -/

theorem checkDomain_meets (hpos : Positioned d) : Meets (checkDomain ord d) (domainChecks d) := by
  rw [checkDomain_eq]
  refine (checkDupReqs_meets d.requirements [] [] (by simp)).bind fun _ _ _ => ?_
  refine verify_meets.bind (B := _) fun _ _ _ => ?_
  refine (scanDup_meets_nil (fun s : Predicate => (s.name, s.pos)) .dupPredicate _ (fun p => p.vars.map (typeUnknown d))
    d.predicates fun p hp => checkDecls_meets _ (hpos.params _ (.predicate hp))).bind fun _ _ hP => ?_
  refine (scanDup_meets_nil (fun s : Task => (s.name, s.pos)) .dupTask _ (fun p => p.params.map (typeUnknown d))
    d.tasks fun p hp => checkDecls_meets _ (hpos.params _ (.task hp))).bind fun _ _ hT => ?_
  have hn : (d.predicates.map (·.name)).Nodup := forEach_nodup_nil hP
  have ht : (d.tasks.map (·.name)).Nodup := forEach_nodup_nil hT
  refine (scanDup_meets_nil (fun s : Action => (s.name, s.pos)) .dupAction _ (actionChecks d)
    d.actions fun p hp => checkAction_meets hn (hpos.params _ (.action hp))).bind fun _ _ hA => ?_
  have ha : (d.actions.map (·.name)).Nodup := forEach_nodup_nil hA
  exact scanDup_meets_nil (fun s : Method => (s.name.name, s.name.pos)) .dupMethod _ (methodChecks d)
    d.methods fun p hp => checkMethod_meets hn ha ht (hpos.params _ (.method hp)) (hpos.orderings p hp)

/-! ### Problems -/

variable {p : ProblemAST} {ws : List Warning}

theorem checkPredArgs_meets (ho : (p.objects.map (·.name)).Nodup) {a : Predicate} {full : List Symbol}
    (hd : ∀ ps, DeclaredFor d a ps ↔ ps = full) : ∀ (vs es : List Symbol) (k : Nat), full.drop k = es →
      vs.length = es.length →
      Meets (checkPredArgs (tableOf ws d) p.objects a.name es vs) ((vs.zipIdx k).map fun v => factArg d p a v.1 v.2)
  | [], es, k, _, hl => by
    cases es with
    | nil => rw [checkPredArgs]; exact .nil; simp
    | cons => simp at hl
  | v :: vs, [], k, _, hl => by simp at hl
  | v :: vs, e :: es, k, hk, hl => by
    have ih := checkPredArgs_meets ho hd vs es (k + 1) (by
      rw [← List.drop_drop, hk, List.drop_one, List.tail_cons]) (by simpa using hl)
    have he : full[k]? = some e := by
      have := congrArg (fun l : List Symbol => l[0]?) hk
      simpa using this
    have hdec : ∀ {ps f}, DeclaredFor d a ps → ps[k]? = some f → f = e := by
      intro ps f h1 h2
      rw [(hd ps).mp h1, he] at h2; cases h2; rfl
    rw [checkPredArgs_step ho, List.zipIdx_cons, List.map_cons]
    cases h1 : findSym p.objects v.name with
    | some o =>
      have hty := typeIn_one h1
      have key : ∀ x, factArg d p a v k x ↔ ¬ Fits (typesOf d) o.ty e.ty ∧
          x = .error (.predArgType ⟨e.ty, v.ty, a.name, v.pos⟩) := by
        intro x
        constructor
        · rintro (⟨hu, _⟩ | ⟨ps, f, ty, h2, h3, h4, ⟨h5, rfl⟩ | ⟨h5, _⟩⟩)
          · exact absurd (fun l hl => hu l (by simp at hl; simp [hl])) hty.bound
          · cases hdec h2 h3
            rw [hty.det h5]
            exact ⟨h4, rfl⟩
          · exact absurd h5 hty.bound
        · rintro ⟨h2, h3⟩
          exact .inr ⟨full, e, o.ty, (hd _).mpr rfl, he, h2, .inl ⟨hty, h3⟩⟩
      simp only
      split
      · next h =>
        rw [consistent_iff] at h
        exact .cons (fun x hx => ((key x).mp hx).1 h) ih
      · next h =>
        rw [consistent_iff] at h
        exact .fail fun x => by rw [key]; simp [h]
    | none =>
      have hno : Unbound [p.objects] v.name := by
        intro l hl; simp at hl; subst hl; exact findSym_none.mp h1
      simp only
      cases h2 : findSym (constantsOf d) v.name with
      | some c =>
        have hty := typeIn_one h2
        have key : ∀ x, factArg d p a v k x ↔ ¬ Fits (typesOf d) c.ty e.ty ∧
            x = .error (.predArgType ⟨e.ty, c.ty, a.name, v.pos⟩) := by
          intro x
          constructor
          · rintro (⟨hu, _⟩ | ⟨ps, f, ty, h2, h3, h4, ⟨h5, rfl⟩ | ⟨h5, h6, rfl⟩⟩)
            · exact absurd (fun l hl => hu l (by simp at hl; simp [hl])) hty.bound
            · exact absurd hno h5.bound
            · cases hdec h2 h3
              rw [hty.det h6]
              exact ⟨h4, rfl⟩
          · rintro ⟨h2, h3⟩
            exact .inr ⟨full, e, c.ty, (hd _).mpr rfl, he, h2, .inr ⟨hno, hty, h3⟩⟩
        simp only
        split
        · next h =>
          rw [consistent_iff] at h
          exact .cons (fun x hx => ((key x).mp hx).1 h) ih
        · next h =>
          rw [consistent_iff] at h
          exact .fail fun x => by rw [key]; simp [h]
      | none =>
        have hno2 : Unbound [constantsOf d] v.name := by
          intro l hl; simp at hl; subst hl; exact findSym_none.mp h2
        refine .fail fun x => ?_
        constructor
        · rintro (⟨_, rfl⟩ | ⟨ps, f, ty, h2, h3, h4, ⟨h5, rfl⟩ | ⟨h5, h6, rfl⟩⟩)
          · rfl
          · exact absurd hno h5.bound
          · exact absurd hno2 h6.bound
        · rintro rfl
          refine .inl ⟨fun l hl => ?_, rfl⟩
          simp only [List.mem_cons, List.not_mem_nil, or_false] at hl
          rcases hl with rfl | rfl
          · exact findSym_none.mp h1
          · exact findSym_none.mp h2

theorem checkPredInst_meets (hn : (d.predicates.map (·.name)).Nodup) (ho : (p.objects.map (·.name)).Nodup)
    (a : Predicate) : Meets (checkPredInst (tableOf ws d) p.objects a) (factChecks d p a) := by
  unfold checkPredInst factChecks
  cases h : d.predicates.find? fun q => decide (q.name = a.name) with
  | some q =>
    obtain ⟨h1, h2⟩ := (find_unique hn).mp h
    have hu : ∀ q' ∈ d.predicates, q'.name = a.name → q' = q := fun q' hq' he =>
      List.inj_on_of_nodup_map hn hq' h1 (he.trans h2.symm)
    simp only
    split
    · next hl =>
      refine .fail fun x => ?_
      constructor
      · rintro (⟨h3, _⟩ | ⟨q', hq', he, h3, rfl⟩)
        · exact absurd h2 (h3 q h1)
        · rw [hu q' hq' he]
      · rintro rfl; exact .inr ⟨q, h1, h2, Ne.symm hl, rfl⟩
    · next hl =>
      have hl := not_not.mp hl
      refine .cons ?_ (checkPredArgs_meets (full := q.vars) ho (fun ps => ?_) a.vars q.vars 0 rfl hl.symm)
      · rintro x (⟨h3, _⟩ | ⟨q', hq', he, h3, _⟩)
        · exact h3 q h1 h2
        · rw [hu q' hq' he] at h3; exact h3 hl.symm
      · constructor
        · rintro ⟨q', hq', he', rfl⟩; rw [hu q' hq' he']
        · rintro rfl; exact ⟨q, h1, h2, rfl⟩
  | none =>
    have h1 := find_none.mp h
    refine .fail fun x => ?_
    constructor
    · rintro (⟨_, rfl⟩ | ⟨q', hq', he, _⟩)
      · rfl
      · exact absurd he (h1 q' hq')
    · rintro rfl; exact .inl ⟨h1, rfl⟩

theorem checkPredInsts_meets (hn : (d.predicates.map (·.name)).Nodup) (ho : (p.objects.map (·.name)).Nodup) :
    ∀ l : List Predicate, Meets (checkPredInsts (tableOf ws d) p.objects l) (l.flatMap (factChecks d p))
  | [] => by rw [checkPredInsts]; exact .nil
  | a :: as => by
    rw [checkPredInsts, List.flatMap_cons]
    exact (checkPredInst_meets hn ho a).bind fun _ _ _ => checkPredInsts_meets hn ho as

theorem checkSubtaskArgs_meets (ho : (p.objects.map (·.name)).Nodup) {h : InitTN} {s : Subtask} {full : List Symbol}
    (hd : ∀ ps, Callee d s.task.name ps ↔ ps = full) : ∀ (vs es : List Symbol) (k : Nat), full.drop k = es →
      vs.length = es.length →
      Meets (checkSubtaskArgs (tableOf ws d) p.objects h.params s.task.name es vs)
        ((vs.zipIdx k).map fun v => initArg d p h s v.1 v.2)
  | [], es, k, _, hl => by
    cases es with
    | nil => rw [checkSubtaskArgs]; exact .nil; simp
    | cons => simp at hl
  | v :: vs, [], k, _, hl => by simp at hl
  | v :: vs, e :: es, k, hk, hl => by
    have ih := checkSubtaskArgs_meets ho (h := h) hd vs es (k + 1) (by
      rw [← List.drop_drop, hk, List.drop_one, List.tail_cons]) (by simpa using hl)
    have he : full[k]? = some e := by
      have := congrArg (fun l : List Symbol => l[0]?) hk
      simpa using this
    have hdec : ∀ {ps f}, Callee d s.task.name ps → ps[k]? = some f → f = e := by
      intro ps f h1 h2
      rw [(hd ps).mp h1, he] at h2; cases h2; rfl
    have inner : ∀ {o : Symbol}, TypeIn [p.objects, h.params.getD []] v.name o.ty → ∀ x, initArg d p h s v k x ↔
        ¬ Fits (typesOf d) o.ty e.ty ∧ x = .error (.taskArgType ⟨e.ty, o.ty, s.task.name, v.pos⟩) := by
      intro o hty x
      constructor
      · rintro (⟨hu, _⟩ | ⟨ps, f, ty, h2, h3, h4, ⟨h5, rfl⟩ | ⟨h5, _⟩⟩)
        · exact absurd (fun l hl => hu l (by simp at hl; rcases hl with rfl | rfl <;> simp)) hty.bound
        · cases hdec h2 h3
          rw [hty.det h5]
          exact ⟨h4, rfl⟩
        · exact absurd h5 hty.bound
      · rintro ⟨h2, h3⟩
        exact .inr ⟨full, e, o.ty, (hd _).mpr rfl, he, h2, .inl ⟨hty, h3⟩⟩
    rw [checkSubtaskArgs, findParam_eq ho, List.zipIdx_cons, List.map_cons]
    cases h1 : findSym p.objects v.name with
    | some o =>
      have key := inner (o := o) (.here (findSym_some.mp h1))
      simp only
      split
      · next h =>
        rw [consistent_iff] at h
        exact .cons (fun x hx => ((key x).mp hx).1 h) ih
      · next h =>
        rw [consistent_iff] at h
        exact .fail fun x => by rw [key]; simp [h]
    | none =>
      simp only
      change Meets (match findSym (h.params.getD []) v.name with
        | some _ => _ | none => _) _
      cases h2 : findSym (h.params.getD []) v.name with
      | some o =>
        have key := inner (o := o) (.outer (findSym_none.mp h1) (.here (findSym_some.mp h2)))
        simp only
        split
        · next h =>
          rw [consistent_iff] at h
          exact .cons (fun x hx => ((key x).mp hx).1 h) ih
        · next h =>
          rw [consistent_iff] at h
          exact .fail fun x => by rw [key]; simp [h]
      | none =>
        have hno : Unbound [p.objects, h.params.getD []] v.name := by
          intro l hl
          simp only [List.mem_cons, List.not_mem_nil, or_false] at hl
          rcases hl with rfl | rfl
          · exact findSym_none.mp h1
          · exact findSym_none.mp h2
        simp only
        cases h3 : findSym (constantsOf d) v.name with
        | some c =>
          have hty := typeIn_one h3
          have key : ∀ x, initArg d p h s v k x ↔ ¬ Fits (typesOf d) c.ty e.ty ∧
              x = .error (.predArgType ⟨e.ty, c.ty, s.task.name, v.pos⟩) := by
            intro x
            constructor
            · rintro (⟨hu, _⟩ | ⟨ps, f, ty, h2, h3, h4, ⟨h5, rfl⟩ | ⟨h5, h6, rfl⟩⟩)
              · exact absurd (fun l hl => hu l (by simp at hl; simp [hl])) hty.bound
              · exact absurd hno h5.bound
              · cases hdec h2 h3
                rw [hty.det h6]
                exact ⟨h4, rfl⟩
            · rintro ⟨h2, h3⟩
              exact .inr ⟨full, e, c.ty, (hd _).mpr rfl, he, h2, .inr ⟨hno, hty, h3⟩⟩
          simp only
          split
          · next h =>
            rw [consistent_iff] at h
            exact .cons (fun x hx => ((key x).mp hx).1 h) ih
          · next h =>
            rw [consistent_iff] at h
            exact .fail fun x => by rw [key]; simp [h]
        | none =>
          have hno2 : Unbound [constantsOf d] v.name := by
            intro l hl; simp at hl; subst hl; exact findSym_none.mp h3
          refine .fail fun x => ?_
          constructor
          · rintro (⟨_, rfl⟩ | ⟨ps, f, ty, h2, h3, h4, ⟨h5, rfl⟩ | ⟨h5, h6, rfl⟩⟩)
            · rfl
            · exact absurd hno h5.bound
            · exact absurd hno2 h6.bound
          · rintro rfl
            refine .inl ⟨fun l hl => ?_, rfl⟩
            simp only [List.mem_cons, List.not_mem_nil, or_false] at hl
            rcases hl with rfl | rfl | rfl
            · exact findSym_none.mp h1
            · exact findSym_none.mp h2
            · exact findSym_none.mp h3

theorem checkSubtaskInst_meets (hd : DomainOk d) (ho : (p.objects.map (·.name)).Nodup) (h : InitTN) (s : Subtask) :
    Meets (checkSubtaskInst (tableOf ws d) p.objects h.params s) (initTaskChecks d p h s) := by
  have ha := hd.actionNames
  have ht := hd.tasks
  unfold checkSubtaskInst initTaskChecks
  have args : ∀ {ps : List Symbol}, Callee d s.task.name ps → ps.length = s.terms.length →
      Meets (checkSubtaskArgs (tableOf ws d) p.objects h.params s.task.name ps s.terms)
        (calleeWrong d s :: s.terms.zipIdx.map fun v => initArg d p h s v.1 v.2) := fun hc hl =>
    .cons (callee_pass ha ht hc hl.symm) (checkSubtaskArgs_meets ho (callee_unique ha ht hc) s.terms _ 0 rfl hl.symm)
  cases h1 : d.actions.find? fun a => decide (a.name = s.task.name) with
  | some a =>
    have hc : Callee d s.task.name a.params := (callee_iff ha ht).mpr (.inl ⟨a, h1, rfl⟩)
    simp only
    split
    · next hl => exact .fail (callee_arity ha ht hc (Ne.symm hl))
    · next hl => exact args hc (not_not.mp hl)
  | none =>
    simp only
    cases h2 : d.tasks.find? fun a => decide (a.name = s.task.name) with
    | some t =>
      have hc : Callee d s.task.name t.params := (callee_iff ha ht).mpr (.inr ⟨h1, t, h2, rfl⟩)
      simp only
      split
      · next hl => exact .fail (callee_arity ha ht hc (Ne.symm hl))
      · next hl => exact args hc (not_not.mp hl)
    | none =>
      refine .fail (callee_fail fun ps hc => ?_)
      rw [callee_iff ha ht, h1, h2] at hc
      rcases hc with ⟨_, h, _⟩ | ⟨_, _, h, _⟩ <;> cases h

theorem checkSubtaskInsts_meets (hd : DomainOk d) (ho : (p.objects.map (·.name)).Nodup) (h : InitTN) :
    ∀ l : List Subtask, Meets (checkSubtaskInsts (tableOf ws d) p.objects h.params l) (l.flatMap (initTaskChecks d p h))
  | [] => by rw [checkSubtaskInsts]; exact .nil
  | s :: ss => by
    rw [checkSubtaskInsts, List.flatMap_cons]
    exact (checkSubtaskInst_meets hd ho h s).bind fun _ _ _ => checkSubtaskInsts_meets hd ho h ss

theorem checkInitTn_meets (hd : DomainOk d) (ho : (p.objects.map (·.name)).Nodup) : ∀ t : Option InitTN,
    (∀ h, t = some h → OrderLocated h.tn) → Meets (checkInitTn (tableOf ws d) p.objects t) (initTnChecks d p t)
  | none, _ => by rw [checkInitTn]; exact .nil
  | some h, hl => by
    rw [checkInitTn, initTnChecks]
    exact (checkOrdering_meets (hl h rfl)).bind (B := _) fun _ _ _ => checkSubtaskInsts_meets hd ho h _

theorem checkGoal_meets (hd : DomainOk d) (ho : (p.objects.map (·.name)).Nodup) : ∀ t : Option Formula,
    Meets (checkGoal (tableOf ws d) p.objects t) (goalChecks d p t)
  | none => by rw [checkGoal]; exact .nil
  | some f => by
    rw [checkGoal, goalChecks, freeAtoms_propPreds]
    exact checkPredInsts_meets hd.predicates ho _

theorem verifyProblem_meets (hd : DomainOk d) (hpos : PositionedP p) :
    Meets (verifyProblem (tableOf ws d) p) (problemChecks d p) := by
  unfold verifyProblem problemChecks
  refine (checkDecls_meets p.objects hpos.objects).bind fun _ _ _ => ?_
  have h1 : Meets (checkDupObjects [] p.objects) (forEach (fun b o => [nameAgain .dupObject symLine b o]) [] p.objects) := by
    rw [checkDupObjects_scan]
    exact scanDup_meets_nil (fun s : Symbol => (s.name, s.pos)) .dupObject (fun _ => .ok ()) (fun _ => []) _ fun _ _ => .nil
  refine h1.bind fun _ _ hO => ?_
  have ho : (p.objects.map (·.name)).Nodup :=
    forEach_nodup_nil (kp := symLine) (mk := .dupObject) (cs := fun _ => []) hO
  refine (checkPredInsts_meets hd.predicates ho _).bind fun _ _ _ => ?_
  refine (checkInitTn_meets hd ho p.initTn hpos.ordering).bind fun _ _ _ => ?_
  have := (checkGoal_meets (ws := ws) hd ho p.goal).bind (k := fun _ => .ok ws) (B := []) fun _ _ _ => .nil
  simpa using this

end Verif
