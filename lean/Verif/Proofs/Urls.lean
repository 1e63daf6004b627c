import Verif.Spec.Urls
import Mathlib.Data.List.TakeDrop
import Mathlib.Data.List.TakeWhile

/-! Proofs about URLs and paths. -/

namespace Verif

open Spec

instance (c : UInt8) (v : Nat) : Decidable (HexDigit c v) := by unfold HexDigit; infer_instance

theorem hexVal_all : ∀ n < 256, (∀ v ∈ (hexVal (.ofNat n)).toList, HexDigit (.ofNat n) v.toNat) ∧
    (hexVal (.ofNat n) = none → ∀ v < 16, ¬ HexDigit (.ofNat n) v) := by decide +kernel

theorem hexDigit_all : ∀ n < 256, ∀ v < 16, HexDigit (.ofNat n) v → hexVal (.ofNat n) = some (.ofNat v) := by
  decide +kernel

theorem byte_eq (c : UInt8) : c = .ofNat c.toNat := by simp

theorem hexDigit_lt {c : UInt8} {v : Nat} (h : HexDigit c v) : v < 16 := by
  rcases h with h | h <;> exact (List.getElem?_eq_some_iff.mp h).1

theorem hexVal_some {c v : UInt8} (h : hexVal c = some v) : HexDigit c v.toNat := by
  have := (hexVal_all c.toNat c.toNat_lt).1
  rw [← byte_eq, h] at this
  exact this v (by simp)

theorem hexVal_none {c : UInt8} (h : hexVal c = none) (v : Nat) : ¬ HexDigit c v := by
  have := (hexVal_all c.toNat c.toNat_lt).2
  rw [← byte_eq] at this
  exact fun hv => this h v (hexDigit_lt hv) hv

theorem hexVal_digit {c : UInt8} {v : Nat} (h : HexDigit c v) : hexVal c = some (.ofNat v) := by
  have := hexDigit_all c.toNat c.toNat_lt v (hexDigit_lt h)
  rw [← byte_eq] at this
  exact this h

theorem escape_eq (x y : UInt8) : x * 16 + y = .ofNat (16 * x.toNat + y.toNat) := by
  apply UInt8.toNat_inj.mp
  simp
  omega

/-- `percentDecode` replaces the escapes. -/
theorem unescaped_decode (p : Bytes) : Unescaped p (percentDecode p) := by
  fun_induction percentDecode p with
  | case1 => exact .nil
  | case2 a =>
    by_cases h : a = 37
    · subst h; exact .percent (by simp) .nil
    · exact .plain h .nil
  | case3 a b =>
    have h1 : Unescaped [b] [b] := by
      by_cases h : b = 37
      · subst h; exact .percent (by simp) .nil
      · exact .plain h .nil
    by_cases h : a = 37
    · subst h; exact .percent (by simp) h1
    · exact .plain h h1
  | case4 b c r x y hy hx ih =>
    rw [escape_eq]
    exact .escape (hexVal_some hx) (hexVal_some hy) ih
  | case5 b c r hn ih =>
    refine .percent ?_ ih
    rintro a b' r' h ⟨⟨x, hx⟩, y, hy⟩
    cases h
    exact hn _ _ (hexVal_digit hx) (hexVal_digit hy)
  | case6 a b c r h ih => exact .plain h ih

theorem decode_unescaped {p q : Bytes} (h : Unescaped p q) : percentDecode p = q := by
  induction h with
  | nil => rfl
  | plain h _ ih =>
    rename_i c p q _
    match p, ih with
    | [], ih => simp [percentDecode] at ih ⊢; exact ih
    | [b], ih => simp only [percentDecode] at ih ⊢; rw [ih]
    | b :: d :: r, ih => rw [percentDecode, if_neg h, ih]
  | escape ha hb _ ih =>
    rename_i a b x y p q _
    rw [percentDecode, if_pos rfl, hexVal_digit ha, hexVal_digit hb]
    simp only [ih]
    congr 1
    have := hexDigit_lt ha
    have := hexDigit_lt hb
    rw [escape_eq]
    congr 1
    simp
    omega
  | percent h _ ih =>
    rename_i p q _
    match p, h, ih with
    | [], _, ih => simp [percentDecode] at ih ⊢; exact ih
    | [b], _, ih => simp only [percentDecode] at ih ⊢; rw [ih]
    | b :: d :: r, h, ih =>
      rw [percentDecode, if_pos rfl]
      have := h b d r rfl
      split
      · rename_i x y hx hy
        exact absurd ⟨⟨_, hexVal_some hx⟩, _, hexVal_some hy⟩ this
      · rw [ih]

theorem unescaped_iff {p q : Bytes} : Unescaped p q ↔ percentDecode p = q :=
  ⟨decode_unescaped, fun h => h ▸ unescaped_decode p⟩

/-- Without percent signs nothing is replaced. -/
theorem unescaped_plain {p : Bytes} (h : 37 ∉ p) : Unescaped p p := by
  induction p with
  | nil => exact .nil
  | cons c p ih =>
    simp only [List.mem_cons, not_or] at h
    exact .plain (Ne.symm h.1) (ih h.2)

theorem unescaped_length {p q : Bytes} (h : Unescaped p q) : q.length ≤ p.length := by
  induction h <;> simp <;> omega

/-- A path is its own decoding exactly if it has no escape. -/
theorem unescaped_self {p q : Bytes} (h : Unescaped p q) : q = p ∨ q.length < p.length := by
  induction h with
  | nil => exact .inl rfl
  | plain h _ ih =>
    rcases ih with ih | ih
    · exact .inl (by rw [ih])
    · exact .inr (by simp; omega)
  | escape _ _ h ih => have := unescaped_length h; exact .inr (by simp; omega)
  | percent _ _ ih =>
    rcases ih with ih | ih
    · exact .inl (by rw [ih])
    · exact .inr (by simp; omega)

/-! ### Folders -/

/-- A list is what remains after dropping elements at its end, and the elements dropped. -/
theorem dropEnd_split (f : UInt8 → Bool) (p : Bytes) : ∃ r, p = (p.reverse.dropWhile f).reverse ++ r ∧ (∀ c ∈ r, f c = true) ∧
    ∀ c, ((p.reverse.dropWhile f).reverse).getLast? = some c → f c = false := by
  refine ⟨(p.reverse.takeWhile f).reverse, ?_, ?_, ?_⟩
  · rw [← List.reverse_append, List.takeWhile_append_dropWhile, List.reverse_reverse]
  · intro c hc
    exact List.mem_takeWhile_imp (List.mem_reverse.mp hc)
  · intro c hc
    rw [List.getLast?_reverse] at hc
    have h := List.head?_dropWhile_not f p.reverse
    rw [hc] at h
    simpa using h

theorem dropEnd_append (f : UInt8 → Bool) {a r : Bytes} (hr : ∀ c ∈ r, f c = true)
    (ha : ∀ c, a.getLast? = some c → f c = false) : ((a ++ r).reverse.dropWhile f).reverse = a := by
  rw [List.reverse_append, List.dropWhile_append_of_pos (fun c hc => hr c (List.mem_reverse.mp hc))]
  cases h : a.reverse with
  | nil => rw [List.reverse_eq_nil_iff.mp h]; rfl
  | cons c b =>
    have h1 : a = b.reverse ++ [c] := by rw [← List.reverse_reverse a, h, List.reverse_cons]
    have h2 : f c = false := ha c (by rw [h1]; simp)
    rw [List.dropWhile_cons_of_neg (by simp [h2]), ← h, List.reverse_reverse]

theorem slashes {r : Bytes} (h : ∀ c ∈ r, (c == 47) = true) : r = List.replicate r.length 47 :=
  List.eq_replicate_iff.mpr ⟨rfl, fun c hc => by simpa using h c hc⟩

/-- `parentDir` is the folder. -/
theorem parentDir_iff {p dir : Bytes} (hp : p.head? = some 47) : parentDir p = some dir ↔ FolderOf p dir := by
  constructor
  · intro h
    unfold parentDir at h
    obtain ⟨r, h1, h2, h3⟩ := dropEnd_split (fun c => c == 47) p
    change p = dropSlashes p ++ r at h1
    change ∀ c, (dropSlashes p).getLast? = some c → _ at h3
    split at h
    · cases h
    rename_i q hq
    obtain ⟨name, h4, h5, h6⟩ := dropEnd_split (fun c => c != 47) (dropSlashes p)
    change dropSlashes p = dropLast (dropSlashes p) ++ name at h4
    change ∀ c, (dropLast (dropSlashes p)).getLast? = some c → _ at h6
    obtain ⟨t, h7, h8, h9⟩ := dropEnd_split (fun c => c == 47) (dropLast (dropSlashes p))
    change dropLast (dropSlashes p) = dropSlashes (dropLast (dropSlashes p)) ++ t at h7
    change ∀ c, (dropSlashes (dropLast (dropSlashes p))).getLast? = some c → _ at h9
    generalize hpre : dropSlashes (dropLast (dropSlashes p)) = pre at *
    generalize hb : dropLast (dropSlashes p) = b at *
    generalize ha : dropSlashes p = a at *
    have hname : 47 ∉ name := fun hm => by simpa using h5 47 hm
    have hne : name ≠ [] := by
      rintro rfl
      rw [List.append_nil] at h4
      cases hl : b.getLast? with
      | none => rw [List.getLast?_eq_none_iff.mp hl] at h4; exact hq h4
      | some c =>
        have := h6 c hl
        have := h3 c (by rw [h4]; exact hl)
        simp_all
    have ht : t ≠ [] := by
      rintro rfl
      rw [List.append_nil] at h7
      cases hl : b.getLast? with
      | none =>
        have hbn := List.getLast?_eq_none_iff.mp hl
        rw [h1, h4, hbn] at hp
        cases name with
        | nil => exact hne rfl
        | cons c l =>
          simp at hp
          rw [hp] at hname
          exact hname List.mem_cons_self
      | some c =>
        have := h6 c hl
        have := h9 c (by rw [← h7]; exact hl)
        simp_all
    refine ⟨pre, name, r.length, t.length - 1, hne, hname, fun h => by simpa using h9 47 h, ?_, ?_⟩
    · rw [← slashes h2, show t.length - 1 + 1 = t.length from by
        have := List.length_pos_of_ne_nil ht; omega, ← slashes h8, ← h7, ← h4, ← h1]
    · split at h
      · rename_i hn
        cases h
        rw [if_pos rfl]
      · rename_i hn
        cases h
        rw [if_neg (by intro h; exact hn h)]
  · rintro ⟨pre, name, j, k, h1, h2, h3, h4, rfl⟩
    have e1 : dropSlashes p = pre ++ List.replicate (k + 1) 47 ++ name := by
      rw [h4]
      refine dropEnd_append _ (fun c hc => by simpa using List.eq_of_mem_replicate hc) fun c hc => ?_
      have : c ∈ name := by
        rw [List.getLast?_append_of_ne_nil _ h1] at hc
        exact List.mem_of_getLast? hc
      by_contra hc
      simp at hc
      rw [hc] at this
      exact h2 this
    have e2 : dropLast (dropSlashes p) = pre ++ List.replicate (k + 1) 47 := by
      rw [e1]
      refine dropEnd_append _ (fun c hc => ?_) fun c hc => ?_
      · simp only [bne_iff_ne, ne_eq]
        rintro rfl
        exact h2 hc
      · rw [List.getLast?_append_of_ne_nil _ (by simp)] at hc
        simpa using List.eq_of_mem_replicate (List.mem_of_getLast? hc)
    have e3 : dropSlashes (dropLast (dropSlashes p)) = pre := by
      rw [e2]
      refine dropEnd_append _ (fun c hc => by simpa using List.eq_of_mem_replicate hc) fun c hc => ?_
      by_contra h
      simp at h
      rw [h] at hc
      exact h3 hc
    unfold parentDir
    split
    · rename_i hn
      rw [e1] at hn
      simp at hn
    · rw [e3]
      cases pre with
      | nil => rfl
      | cons c l => rfl

theorem parentDir_none {p : Bytes} : parentDir p = none ↔ ∀ c ∈ p, c = 47 := by
  unfold parentDir
  obtain ⟨r, h1, h2, h3⟩ := dropEnd_split (fun c => c == 47) p
  change p = dropSlashes p ++ r at h1
  change ∀ c, (dropSlashes p).getLast? = some c → _ at h3
  constructor
  · intro h
    split at h
    · rename_i hn
      intro c hc
      rw [h1, hn] at hc
      simpa using h2 c hc
    · split at h <;> cases h
  · intro h
    have : dropSlashes p = [] := by
      cases hl : (dropSlashes p).getLast? with
      | none => exact List.getLast?_eq_none_iff.mp hl
      | some c =>
        have h4 := h3 c hl
        rw [h c (by rw [h1]; exact List.mem_append_left _ (List.mem_of_getLast? hl))] at h4
        cases h4
    rw [this]

theorem joinPath_iff {dir name p : Bytes} : EntryOf dir name p ↔ p = joinPath dir name := by
  unfold EntryOf joinPath
  by_cases h : dir = [47]
  · simp [h]
  · simp [h]

/-! ### Extensions -/

theorem extension_iff {name e : Bytes} : extension name = some e ↔ ∃ stem, stem ≠ [] ∧ 46 ∉ e ∧ name = stem ++ 46 :: e := by
  unfold extension
  rw [List.span_eq_takeWhile_dropWhile]
  have hsplit := List.takeWhile_append_dropWhile (p := fun c : UInt8 => c != 46) (l := name.reverse)
  have htake : ∀ c ∈ name.reverse.takeWhile (fun c => c != 46), c ≠ 46 := fun c hc => by
    simpa using List.mem_takeWhile_imp hc
  have hdrop := List.head?_dropWhile_not (fun c : UInt8 => c != 46) name.reverse
  generalize name.reverse.takeWhile (fun c => c != 46) = a at *
  generalize name.reverse.dropWhile (fun c => c != 46) = b at *
  have hname : name = b.reverse ++ a.reverse := by rw [← List.reverse_append, hsplit, List.reverse_reverse]
  have huniq : ∀ stem, 46 ∉ e → name = stem ++ 46 :: e → b = 46 :: stem.reverse ∧ a = e.reverse := by
    intro stem he h
    have h1 : a ++ b = e.reverse ++ 46 :: stem.reverse := by
      rw [hsplit, h]; simp
    have he' : ∀ c ∈ e.reverse, c ≠ 46 := fun c hc => by
      rintro rfl; exact he (List.mem_reverse.mp hc)
    clear hname h hsplit
    induction a generalizing e with
    | nil =>
      cases hr : e.reverse with
      | nil => rw [hr] at h1; exact ⟨by simpa using h1, rfl⟩
      | cons c l =>
        rw [hr] at h1
        simp only [List.nil_append, List.cons_append] at h1
        rw [h1] at hdrop
        simp at hdrop
        exact absurd hdrop (he' c (by rw [hr]; exact List.mem_cons_self))
    | cons c a ih =>
      cases hr : e.reverse with
      | nil =>
        rw [hr] at h1
        simp only [List.cons_append, List.nil_append, List.cons.injEq] at h1
        exact absurd h1.1 (htake c List.mem_cons_self)
      | cons d l =>
        rw [hr] at h1
        simp only [List.cons_append, List.cons.injEq] at h1
        obtain ⟨rfl, h1⟩ := h1
        have := ih (e := l.reverse) (fun x hx => htake x (List.mem_cons_of_mem _ hx))
          (fun hm => he' 46 (by rw [hr]; exact List.mem_cons_of_mem _ (List.mem_reverse.mp hm)) rfl)
          (by rw [List.reverse_reverse]; exact h1)
          (fun x hx => he' x (by rw [hr]; exact List.mem_cons_of_mem _ (by simpa using hx)))
        rw [List.reverse_reverse] at this
        exact ⟨this.1, by rw [this.2]⟩
  constructor
  · intro h
    match b, h, hdrop, hname with
    | [], h, _, _ => cases h
    | [_], h, _, _ => cases h
    | c :: d :: b, h, hdrop, hname =>
      cases h
      simp at hdrop
      refine ⟨(d :: b).reverse, by simp, fun hm => htake 46 (List.mem_reverse.mp hm) rfl, ?_⟩
      rw [hname, hdrop]
      simp
  · rintro ⟨stem, hs, he, h⟩
    obtain ⟨rfl, rfl⟩ := huniq stem he h
    cases hst : stem.reverse with
    | nil => exact absurd (List.reverse_eq_nil_iff.mp hst) hs
    | cons c l => simp

theorem isHddlName_iff {name : Bytes} : isHddlName name = true ↔ HddlFile name := by
  unfold isHddlName HddlFile
  simp only [Bool.or_eq_true, beq_iff_eq, extension_iff]
  constructor
  · rintro (⟨stem, h, _, h2⟩ | ⟨stem, h, _, h2⟩)
    · exact ⟨stem, h, .inl h2⟩
    · exact ⟨stem, h, .inr h2⟩
  · rintro ⟨stem, h, h2 | h2⟩
    · exact .inl ⟨stem, h, by decide, h2⟩
    · exact .inr ⟨stem, h, by decide, h2⟩

/-! ### URLs -/

theorem toFilePath_none {u : DocUrl} : u.toFilePath = none ↔ ¬ IsFile u := by
  unfold DocUrl.toFilePath IsFile
  split
  · rename_i r hr
    rw [hr]
    by_cases h : u.host = none ∨ u.host = some b!"localhost"
    · simp [h]
    · simp only [h, if_false, and_false, not_false_eq_true]
  · rename_i hr
    cases hp : u.path with
    | nil => simp
    | cons c r =>
      have : c ≠ 47 := by rintro rfl; exact hr r hp
      simp [this]

/-- The path that `to_file_path` gives is that of the file, up to a slash at its end. -/
theorem toFilePath_some {u : DocUrl} {p : Bytes} (h : FileOf u p) :
    u.toFilePath = some (if endsLikeDrive p then p ++ [47] else p) := by
  obtain ⟨⟨h1, h2⟩, h3⟩ := h
  unfold DocUrl.toFilePath
  cases hp : u.path with
  | nil => rw [hp] at h1; cases h1
  | cons c r =>
    rw [hp] at h1
    cases h1
    simp only [if_pos h2]
    rw [← hp, decode_unescaped h3]

theorem fileOf_exists {u : DocUrl} (h : IsFile u) : ∃ p, FileOf u p := ⟨_, h, unescaped_decode _⟩

theorem fileOf_unique {u : DocUrl} {p q : Bytes} (h : FileOf u p) (h' : FileOf u q) : p = q := by
  rw [← decode_unescaped h.2, decode_unescaped h'.2]

theorem fileOf_head {u : DocUrl} {p : Bytes} (h : FileOf u p) : p.head? = some 47 := by
  obtain ⟨⟨h1, _⟩, h3⟩ := h
  generalize u.path = q at *
  cases h3 with
  | nil => exact h1
  | plain _ _ => exact h1
  | escape _ _ _ => cases h1
  | percent _ _ => cases h1

theorem folderOf_slash {p dir : Bytes} : FolderOf (p ++ [47]) dir ↔ FolderOf p dir := by
  constructor
  · rintro ⟨pre, name, j, k, h1, h2, h3, h4, h5⟩
    cases j with
    | zero =>
      exfalso
      rw [List.replicate_zero, List.append_nil] at h4
      have := congrArg List.getLast? h4
      rw [List.getLast?_append_of_ne_nil _ h1] at this
      simp at this
      exact h2 (List.mem_of_getLast? this.symm)
    | succ j =>
      refine ⟨pre, name, j, k, h1, h2, h3, ?_, h5⟩
      rw [List.replicate_succ' (n := j), ← List.append_assoc] at h4
      exact List.append_cancel_right h4
  · rintro ⟨pre, name, j, k, h1, h2, h3, h4, h5⟩
    exact ⟨pre, name, j + 1, k, h1, h2, h3, by rw [h4, List.replicate_succ' (n := j), ← List.append_assoc], h5⟩

/-- The folder in which the server looks. -/
theorem folder_path {u : DocUrl} {p q dir : Bytes} (h : FileOf u p) (hq : u.toFilePath = some q) :
    parentDir q = some dir ↔ FolderOf p dir := by
  rw [toFilePath_some h] at hq
  cases hq
  have hh := fileOf_head h
  split
  · rw [parentDir_iff (by cases p <;> simp_all), folderOf_slash]
  · exact parentDir_iff hh

theorem folder_none {u : DocUrl} {p q : Bytes} (h : FileOf u p) (hq : u.toFilePath = some q) :
    parentDir q = none ↔ ∀ c ∈ p, c = 47 := by
  rw [toFilePath_some h] at hq
  cases hq
  rw [parentDir_none]
  split
  · simp only [List.mem_append, List.mem_singleton]
    exact ⟨fun h c hc => h c (.inl hc), fun h c hc => hc.elim (h c) id⟩
  · rfl

end Verif
