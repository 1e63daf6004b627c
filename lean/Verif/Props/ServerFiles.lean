import Verif.Proofs.Urls
import Verif.Proofs.Utf8
import Verif.Props.Requests

/-! The language server and the files of the user. -/

namespace Verif

open Spec

variable [Env] {ord : HashOrd}

/-! ### C70: the server finds the files that documents name -/

omit [Env] in
theorem unescaped_noEscape {p q : Bytes} (h : Unescaped p q) : q = p ↔ NoEscape p := by
  constructor
  · rintro rfl pre a b x y post ha hb rfl
    have key : ∀ (pre : Bytes) {q : Bytes}, Unescaped (pre ++ 37 :: a :: b :: post) q →
        q.length < (pre ++ 37 :: a :: b :: post).length := by
      intro pre
      induction pre with
      | nil =>
        intro q h
        cases h with
        | plain h _ => exact absurd rfl h
        | escape _ _ h => have := unescaped_length h; simp; omega
        | percent h _ => exact absurd ⟨⟨x, ha⟩, y, hb⟩ (h a b post rfl)
      | cons c pre ih =>
        intro q h
        generalize hl : c :: pre ++ 37 :: a :: b :: post = l at h
        cases h with
        | nil => cases hl
        | plain _ h => cases hl; have := ih h; simp at this ⊢; omega
        | percent _ h => cases hl; have := ih h; simp at this ⊢; omega
        | escape h1 h2 h =>
          have := unescaped_length h
          simp; omega
    exact Nat.lt_irrefl _ (key pre h)
  · intro hn
    induction h with
    | nil => rfl
    | plain _ _ ih =>
      rw [ih]
      intro pre a b x y post ha hb he
      exact hn (_ :: pre) a b x y post ha hb (by rw [he]; rfl)
    | escape ha hb _ _ => exact absurd rfl (hn [] _ _ _ _ _ ha hb)
    | percent _ _ ih =>
      rw [ih]
      intro pre a b x y post ha hb he
      exact hn (_ :: pre) a b x y post ha hb (by rw [he]; rfl)

/-- A request for `u` is answered with `r`, or ends otherwise. -/
def AnswersFs (ord : HashOrd) (s : Store DocUrl) (fs : FileSys) (u : DocUrl) (r : R LspAnswer) : Prop :=
  ∃ N, ∀ n, N ≤ n → diagnosticFs ord n s fs u = r

variable {s : Store DocUrl} {fs : FileSys} {u : DocUrl} {p dir doc dom : Bytes} {names folder : List Bytes}

omit [Env] in
/-- C70: a document that is saved without its text gets the content of the file that its URL denotes, if this URL has no
escapes.  Missing: the other URLs, see `C70_save_refuted`. -/
theorem C70_save_partial {c : Bytes} (hu : FileOf u p) (he : NoEscape u.path) (hc : fs.read p = some c) :
    ∃ s', saveFs s fs u none = .ok s' ∧ s'.get u = some c ∧ ∀ v, v ≠ u → s'.get v = s.get v := by
  have : p = u.path := (unescaped_noEscape hu.2).mpr he
  subst this
  refine ⟨s.sync u c, by simp only [saveFs, hc], by rw [Store.get_sync, if_pos rfl], fun v hv => ?_⟩
  rw [Store.get_sync, if_neg (Ne.symm hv)]

omit [Env] in
/-- C70 does not hold for saved documents whose URL has an escape, such as `%20` for a blank: the file that is read is
another one.  Either it cannot be read, and the server panics, or the document gets its content. -/
theorem C70_save_refuted (hu : FileOf u p) (he : ¬ NoEscape u.path) (c c' : Bytes) :
    (∃ fs, fs.read p = some c ∧ saveFs s fs u none = .panic .readFile) ∧
    ∃ fs s', fs.read p = some c ∧ saveFs s fs u none = .ok s' ∧ s'.get u = some c' := by
  have hne : u.path ≠ p := fun h => he ((unescaped_noEscape hu.2).mp h.symm)
  refine ⟨⟨⟨fun q => if q = p then some c else none, fun _ => none⟩, by simp, by simp [saveFs, hne]⟩,
    ⟨fun q => if q = p then some c else some c', fun _ => none⟩, s.sync u c', by simp, by simp [saveFs, hne], ?_⟩
  rw [Store.get_sync, if_pos rfl]

omit [Env] in
/-- Instance: the file `/my files/d.hddl`. -/
example : FileOf ⟨none, b!"/my%20files/d.hddl", []⟩ b!"/my files/d.hddl" ∧ ¬ NoEscape b!"/my%20files/d.hddl" ∧
    FileOf ⟨none, b!"/files/50%/d.hddl", []⟩ b!"/files/50%/d.hddl" := by
  refine ⟨⟨⟨rfl, .inl rfl⟩, unescaped_iff.mpr (by decide +kernel)⟩, fun h => ?_,
    ⟨⟨rfl, .inl rfl⟩, unescaped_iff.mpr (by decide +kernel)⟩⟩
  exact h b!"/my" 50 48 2 0 b!"files/d.hddl" (.inl rfl) (.inl rfl) rfl

/-! #### The search for the domain -/

/-- The contents of the `hddl` and `pddl` files that are read: up to one that starts like a domain (or that cannot be
classified), or all. -/
def Seen (fs : FileSys) (dir : Bytes) (names folder : List Bytes) : Prop :=
  ∃ pre post, names = pre ++ post ∧ Contents fs dir pre folder ∧
    (post = [] ∨ ∃ c ∈ folder, classify c = .ok .domain ∨ ∃ x, classify c = .panic x)

/-- A file of the folder cannot be read, before a domain is found. -/
def Unread (fs : FileSys) (dir : Bytes) (names : List Bytes) : Prop :=
  ∃ pre name post cs p, names = pre ++ name :: post ∧ Contents fs dir pre cs ∧
    (∀ c ∈ cs, classify c = .ok .problem ∨ classify c = .ok .maybeNotHddl) ∧
    HddlFile name ∧ EntryOf dir name p ∧ fs.read p = none

/-- The search ends. -/
theorem search_cases (fs : FileSys) (dir : Bytes) (names : List Bytes) :
    (Unread fs dir names ∧ searchDomain fs dir names = .panic .readFile) ∨
    ∃ folder, Seen fs dir names folder ∧
      ((∃ x, findDomain folder = .panic x ∧ searchDomain fs dir names = .panic x) ∨
       ∃ o, findDomain folder = .ok o ∧
        searchDomain fs dir names = if validUtf8 dir then .ok o else .panic .folderName) := by
  induction names with
  | nil => exact .inr ⟨[], ⟨[], [], rfl, .nil, .inl rfl⟩, .inr ⟨none, rfl, rfl⟩⟩
  | cons name names ih =>
    by_cases hn : HddlFile name
    · have hn' := isHddlName_iff.mpr hn
      have he : EntryOf dir name (joinPath dir name) := joinPath_iff.mpr rfl
      cases hr : fs.read (joinPath dir name) with
      | none =>
        refine .inl ⟨⟨[], name, names, [], _, rfl, .nil, by simp, hn, he, hr⟩, ?_⟩
        simp only [searchDomain, hn', if_true, hr]
      | some c =>
        have stop (h : classify c = .ok .domain ∨ ∃ x, classify c = .panic x) : Seen fs dir (name :: names) [c] :=
          ⟨[name], names, rfl, .file hn he hr .nil, .inr ⟨c, by simp, h⟩⟩
        have go (h : classify c = .ok .problem ∨ classify c = .ok .maybeNotHddl) :
            searchDomain fs dir (name :: names) = searchDomain fs dir names ∧
            ∀ cs, findDomain (c :: cs) = findDomain cs := by
          simp only [searchDomain, hn', if_true, hr, findDomain]
          rcases h with h | h <;> simp [h, R.bind]
        have on (h : classify c = .ok .problem ∨ classify c = .ok .maybeNotHddl) :
          (Unread fs dir (name :: names) ∧ searchDomain fs dir (name :: names) = .panic .readFile) ∨
          ∃ folder, Seen fs dir (name :: names) folder ∧
            ((∃ x, findDomain folder = .panic x ∧ searchDomain fs dir (name :: names) = .panic x) ∨
             ∃ o, findDomain folder = .ok o ∧
              searchDomain fs dir (name :: names) = if validUtf8 dir then .ok o else .panic .folderName) := by
          obtain ⟨g1, g2⟩ := go h
          rw [g1]
          rcases ih with ⟨⟨pre, n', post, cs, p, h1, h2, h3, h4⟩, h5⟩ | ⟨folder, ⟨pre, post, h1, h2, h3⟩, h4⟩
          · refine .inl ⟨⟨name :: pre, n', post, c :: cs, p, by rw [h1]; rfl, .file hn he hr h2, ?_, h4⟩, h5⟩
            exact List.forall_mem_cons.mpr ⟨h, h3⟩
          · refine .inr ⟨c :: folder, ⟨name :: pre, post, by rw [h1]; rfl, .file hn he hr h2, ?_⟩, ?_⟩
            · rcases h3 with h3 | ⟨d, hd, h3⟩
              · exact .inl h3
              · exact .inr ⟨d, List.mem_cons_of_mem _ hd, h3⟩
            · rw [g2]; exact h4
        cases hc : classify c with
        | ok v =>
          cases v with
          | domain =>
            refine .inr ⟨[c], stop (.inl hc), .inr ⟨some c, by simp [findDomain, hc, R.bind], ?_⟩⟩
            simp only [searchDomain, hn', if_true, hr, hc, R.bind]
          | problem => exact on (.inl hc)
          | maybeNotHddl => exact on (.inr hc)
        | panic x =>
          refine .inr ⟨[c], stop (.inr ⟨x, hc⟩), .inl ⟨x, by simp [findDomain, hc, R.bind], ?_⟩⟩
          simp only [searchDomain, hn', if_true, hr, hc, R.bind]
        | err e => exact absurd hc (noErr_classify e)
        | timeout => exact absurd hc classify_ne
    · have hn' : isHddlName name = false := by
        cases h : isHddlName name with
        | true => exact absurd (isHddlName_iff.mp h) hn
        | false => rfl
      have g1 : searchDomain fs dir (name :: names) = searchDomain fs dir names := by simp [searchDomain, hn']
      rw [g1]
      rcases ih with ⟨⟨pre, n', post, cs, p, h1, h2, h3, h4⟩, h5⟩ | ⟨folder, ⟨pre, post, h1, h2, h3⟩, h4⟩
      · exact .inl ⟨⟨name :: pre, n', post, cs, p, by rw [h1]; rfl, .other hn h2, h3, h4⟩, h5⟩
      · exact .inr ⟨folder, ⟨name :: pre, post, by rw [h1]; rfl, .other hn h2, h3⟩, h4⟩

/-! #### The answers -/

/-- What a request for a synced document needs of the file system is missing. -/
inductive Blocked (fs : FileSys) (u : DocUrl) (doc : Bytes) : Prop
  /-- the URL is not that of a file (a document that was not saved yet, a file on another computer) -/
  | noFile : ¬ IsFile u → Blocked fs u doc
  /-- the document is a problem and there is no folder that it is in -/
  | noFolder {p : Bytes} : FileOf u p → classify doc = .ok .problem → (∀ c ∈ p, c = 47) → Blocked fs u doc
  /-- the document is a problem and its folder cannot be listed -/
  | unlisted {p dir : Bytes} : FileOf u p → classify doc = .ok .problem → FolderOf p dir → fs.list dir = none → Blocked fs u doc
  /-- the document is a problem and the name of its folder is no text -/
  | noText {p dir : Bytes} : FileOf u p → classify doc = .ok .problem → FolderOf p dir → ¬ IsText dir → Blocked fs u doc
  /-- the document is a problem, and a file in its folder that comes before every domain cannot be read -/
  | unread {p dir : Bytes} {names : List Bytes} : FileOf u p → classify doc = .ok .problem → FolderOf p dir → fs.list dir = some names →
      Unread fs dir names → Blocked fs u doc

/-- The files that a request for `u` is about. -/
def Around (fs : FileSys) (u : DocUrl) (folder : List Bytes) : Prop :=
  ∃ p dir names, FileOf u p ∧ FolderOf p dir ∧ fs.list dir = some names ∧ Seen fs dir names folder

omit [Env] in
theorem isText_iff : validUtf8 dir = true ↔ IsText dir := validUtf8_iff

omit [Env] in
theorem folderOf_unique {p dir dir' : Bytes} (hp : p.head? = some 47) (h : FolderOf p dir) (h' : FolderOf p dir') :
    dir = dir' := by
  have h1 := (parentDir_iff hp).mpr h
  rw [(parentDir_iff hp).mpr h'] at h1
  exact (Option.some.inj h1).symm

theorem diagnosticFs_problem (hs : s.get u = some doc) (hc : classify doc = .ok .problem) (hu : FileOf u p)
    (hd : FolderOf p dir) (hl : fs.list dir = some names) (n : Nat) : diagnosticFs ord n s fs u =
      (searchDomain fs dir names).bind fun dom =>
        (diagnoseProblem ord n dom doc).bind fun items => .ok (.report items) := by
  have hq := toFilePath_some hu
  simp only [diagnosticFs, hs, hq, hc, R.bind, (folder_path hu hq).mpr hd, hl]

/-- C70: if something is missing, the server panics, and no request is answered any more. -/
theorem C70_blocked (hs : s.get u = some doc) (h : Blocked fs u doc) : ∃ x, ∀ n, diagnosticFs ord n s fs u = .panic x := by
  cases h with
  | noFile h => exact ⟨.urlNotFile, fun n => by simp only [diagnosticFs, hs, toFilePath_none.mpr h]⟩
  | noFolder hu hc h =>
    have hq := toFilePath_some hu
    exact ⟨.noFolder, fun n => by simp only [diagnosticFs, hs, hq, hc, R.bind, (folder_none hu hq).mpr h]⟩
  | unlisted hu hc hd hl =>
    have hq := toFilePath_some hu
    exact ⟨.readDir, fun n => by simp only [diagnosticFs, hs, hq, hc, R.bind, (folder_path hu hq).mpr hd, hl]⟩
  | @noText p dir hu hc hd ht =>
    have hq := toFilePath_some hu
    cases hl : fs.list dir with
    | none => exact ⟨.readDir, fun n => by simp only [diagnosticFs, hs, hq, hc, R.bind, (folder_path hu hq).mpr hd, hl]⟩
    | some names =>
      have hv : validUtf8 dir = false := by
        cases h : validUtf8 dir with
        | true => exact absurd (isText_iff.mp h) ht
        | false => rfl
      rcases search_cases fs dir names with ⟨_, h⟩ | ⟨_, _, ⟨x, _, h⟩ | ⟨_, _, h⟩⟩
      · exact ⟨_, fun n => by rw [diagnosticFs_problem hs hc hu hd hl, h]; rfl⟩
      · exact ⟨_, fun n => by rw [diagnosticFs_problem hs hc hu hd hl, h]; rfl⟩
      · rw [hv] at h
        exact ⟨_, fun n => by rw [diagnosticFs_problem hs hc hu hd hl, h]; rfl⟩
  | @unread p dir names hu hc hd hl hr =>
    obtain ⟨pre, name, post, cs, q, rfl, h1, h2, h3, h4, h5⟩ := hr
    have key : searchDomain fs dir (pre ++ name :: post) = .panic .readFile := by
      clear hl
      induction h1 with
      | nil => simp only [List.nil_append, searchDomain, isHddlName_iff.mpr h3, if_true, ← joinPath_iff.mp h4, h5]
      | other h _ ih =>
        have hn : ¬ isHddlName _ = true := fun h' => h (isHddlName_iff.mp h')
        rw [List.cons_append, searchDomain, if_neg hn]
        exact ih h2
      | file h he hr _ ih =>
        obtain ⟨g1, g2⟩ := List.forall_mem_cons.mp h2
        simp only [List.cons_append, searchDomain, isHddlName_iff.mpr h, if_true, ← joinPath_iff.mp he, hr]
        rcases g1 with g1 | g1 <;> (rw [g1]; exact ih g2)
    exact ⟨_, fun n => by rw [diagnosticFs_problem hs hc hu hd hl, key]; rfl⟩

/-- C70: otherwise a problem is answered as the server that is given the files around it (C41, C42, C50, C58) answers. -/
theorem C70_problem (hs : s.get u = some doc) (hc : classify doc = .ok .problem) (h : ¬ Blocked fs u doc) :
    ∃ folder, Around fs u folder ∧ ∀ n, diagnosticFs ord n s fs u = diagnostic ord n s folder u := by
  have hf : IsFile u := by
    by_contra hf; exact h (.noFile hf)
  obtain ⟨p, hu⟩ := fileOf_exists hf
  have hq := toFilePath_some hu
  cases hd : parentDir _ with
  | none => exact absurd (.noFolder hu hc ((folder_none hu hq).mp hd)) h
  | some dir =>
    have hd' := (folder_path hu hq).mp hd
    cases hl : fs.list dir with
    | none => exact absurd (.unlisted hu hc hd' hl) h
    | some names =>
      have ht : IsText dir := by
        by_contra ht; exact h (.noText hu hc hd' ht)
      rcases search_cases fs dir names with ⟨hr, _⟩ | ⟨folder, hseen, ⟨x, h1, h2⟩ | ⟨o, h1, h2⟩⟩
      · exact absurd (.unread hu hc hd' hl hr) h
      · refine ⟨folder, ⟨p, dir, names, hu, hd', hl, hseen⟩, fun n => ?_⟩
        rw [diagnosticFs_problem hs hc hu hd' hl, h2]
        simp only [diagnostic, hs, hc, R.bind, h1]
      · refine ⟨folder, ⟨p, dir, names, hu, hd', hl, hseen⟩, fun n => ?_⟩
        rw [diagnosticFs_problem hs hc hu hd' hl, h2, if_pos (isText_iff.mpr ht)]
        simp only [diagnostic, hs, hc, R.bind, h1]

/-- C70: other documents are answered whatever is in their folder. -/
theorem C70_other (h : ∀ doc, s.get u = some doc → IsFile u ∧ classify doc ≠ .ok .problem) (n : Nat)
    (folder : List Bytes) : diagnosticFs ord n s fs u = diagnostic ord n s folder u := by
  unfold diagnosticFs diagnostic
  cases hs : s.get u with
  | none => rfl
  | some doc =>
    obtain ⟨h1, h2⟩ := h doc hs
    obtain ⟨p, hu⟩ := fileOf_exists h1
    rw [toFilePath_some hu]
    dsimp only
    cases hc : classify doc with
    | ok v =>
      cases v with
      | problem => exact absurd hc h2
      | domain => rfl
      | maybeNotHddl => rfl
    | _ => rfl

theorem diagnosticFs_congr {s s' : Store DocUrl} (h : s.get u = s'.get u) (n : Nat) (fs : FileSys) :
    diagnosticFs ord n s fs u = diagnosticFs ord n s' fs u := by
  unfold diagnosticFs; rw [h]

omit [Env] in
theorem contents_read {names folder : List Bytes} (h : Contents fs dir names folder) :
    ∀ t ∈ folder, ∃ p, fs.read p = some t := by
  induction h with
  | nil => simp
  | other _ _ ih => exact ih
  | file _ _ hr _ ih => exact List.forall_mem_cons.mpr ⟨⟨_, hr⟩, ih⟩

/-- A request either panics at once, or is that of the server that is given some files. -/
theorem diagnosticFs_cases (ord : HashOrd) (s : Store DocUrl) (fs : FileSys) (u : DocUrl) :
    (∃ x, ∀ n, diagnosticFs ord n s fs u = .panic x) ∨
    ∃ folder, (∀ t ∈ folder, ∃ p, fs.read p = some t) ∧ ∀ n, diagnosticFs ord n s fs u = diagnostic ord n s folder u := by
  cases hs : s.get u with
  | none => exact .inr ⟨[], by simp, fun n => C70_other (fun doc h => by rw [hs] at h; cases h) n []⟩
  | some doc =>
    by_cases hb : Blocked fs u doc
    · exact .inl (C70_blocked hs hb)
    · have hf : IsFile u := by
        by_contra hf; exact hb (.noFile hf)
      by_cases hc : classify doc = .ok .problem
      · obtain ⟨folder, ⟨_, _, _, _, _, _, _, _, _, h1, _⟩, h⟩ := C70_problem (ord := ord) hs hc hb
        exact .inr ⟨folder, contents_read h1, h⟩
      · exact .inr ⟨[], by simp, fun n => C70_other (fun doc' h => by rw [hs] at h; cases h; exact ⟨hf, hc⟩) n []⟩

theorem answersFs_of_run {n : Nat} {r : R LspAnswer} (hr : r ≠ .timeout) (h : diagnosticFs ord n s fs u = r) :
    AnswersFs ord s fs u r := by
  rcases diagnosticFs_cases ord s fs u with ⟨x, hx⟩ | ⟨folder, _, hx⟩
  · rw [hx] at h
    exact ⟨0, fun n _ => by rw [hx, h]⟩
  · rw [hx] at h
    obtain ⟨N, hN⟩ := answers_of_run hr h
    exact ⟨N, fun n hn => by rw [hx]; exact hN n hn⟩

theorem AnswersFs.det {r r' : R LspAnswer} (h : AnswersFs ord s fs u r) (h' : AnswersFs ord s fs u r') : r = r' := by
  obtain ⟨N, hN⟩ := h
  obtain ⟨M, hM⟩ := h'
  rw [← hN (max N M) (by omega), ← hM (max N M) (by omega)]

theorem noErr_diagnosticFs {n : Nat} : NoErr (diagnosticFs ord n s fs u) := by
  rcases diagnosticFs_cases ord s fs u with ⟨x, hx⟩ | ⟨folder, _, hx⟩
  · rw [hx]; intro e h; cases h
  · rw [hx]; exact noErr_diagnostic

theorem diagnosticFs_ends (h : ∀ t, s.get u = some t → Ended t) (hf : ∀ p t, fs.read p = some t → Ended t) :
    ∃ n, diagnosticFs ord n s fs u ≠ .timeout := by
  rcases diagnosticFs_cases ord s fs u with ⟨x, hx⟩ | ⟨folder, hr, hx⟩
  · exact ⟨0, by rw [hx]; simp⟩
  · obtain ⟨n, hn⟩ := diagnostic_ends (ord := ord) h (fun t ht => let ⟨p, hp⟩ := hr t ht; hf p t hp)
    exact ⟨n, by rw [hx]; exact hn⟩

/-- Around a problem, `folder` is searched as any other list of files that is read. -/
theorem seen_find {folder folder' : List Bytes} (h : Seen fs dir names folder) (h' : Seen fs dir names folder') :
    findDomain folder = findDomain folder' := by
  obtain ⟨pre, post, rfl, h1, h2⟩ := h
  obtain ⟨pre', post', he, h1', h2'⟩ := h'
  induction h1 generalizing pre' folder' with
  | nil =>
    rcases h2 with rfl | ⟨c, hc, _⟩
    · cases pre' with
      | nil => cases h1'; rfl
      | cons _ _ => simp at he
    · cases hc
  | @other name names cs hn _ ih =>
    cases h1' with
    | nil =>
      rcases h2' with rfl | ⟨c, hc, _⟩
      · simp at he
      · cases hc
    | other _ h1' => obtain ⟨rfl, he'⟩ := List.cons.inj he; exact ih h2 _ he' h1' h2'
    | file hn' _ _ _ => obtain ⟨rfl, he'⟩ := List.cons.inj he; exact absurd hn' hn
  | @file name names p c cs hn hp hr h1 ih =>
    cases h1' with
    | nil =>
      rcases h2' with rfl | ⟨c, hc, _⟩
      · simp at he
      · cases hc
    | other hn' _ => obtain ⟨rfl, he'⟩ := List.cons.inj he; exact absurd hn hn'
    | @file _ _ p' c' cs' _ hp' hr' h1' =>
      obtain ⟨rfl, he'⟩ := List.cons.inj he
      rw [joinPath_iff.mp hp] at hr
      rw [joinPath_iff.mp hp', hr] at hr'
      cases hr'
      rw [findDomain, findDomain]
      cases hc : classify c with
      | ok v =>
        cases v with
        | domain => rfl
        | _ =>
          refine ih ?_ _ he' h1' ?_
          · rcases h2 with h2 | ⟨d, hd, h2⟩
            · exact .inl h2
            · rcases List.mem_cons.mp hd with rfl | hd
              · rw [hc] at h2; rcases h2 with h2 | ⟨_, h2⟩ <;> cases h2
              · exact .inr ⟨d, hd, h2⟩
          · rcases h2' with h3 | ⟨d, hd, h3⟩
            · exact .inl h3
            · rcases List.mem_cons.mp hd with rfl | hd
              · rw [hc] at h3; rcases h3 with h3 | ⟨_, h3⟩ <;> cases h3
              · exact .inr ⟨d, hd, h3⟩
      | _ => rfl

/-- C70: the whole folder may be taken, if all of it can be read. -/
theorem C70_folder (hu : FileOf u p) (hd : FolderOf p dir) (hl : fs.list dir = some names) (ht : IsText dir)
    (hf : Contents fs dir names folder) (n : Nat) : diagnosticFs ord n s fs u = diagnostic ord n s folder u := by
  have hq := toFilePath_some hu
  by_cases h : ∃ doc, s.get u = some doc ∧ classify doc = .ok .problem
  · obtain ⟨doc, hs, hc⟩ := h
    have hseen : Seen fs dir names folder := ⟨names, [], by simp, hf, .inl rfl⟩
    have hnb : ¬ Blocked fs u doc := by
      intro hb
      cases hb with
      | noFile h => exact h hu.1
      | noFolder hu' _ h =>
        cases fileOf_unique hu hu'
        have h1 := (folder_none hu hq).mpr h
        rw [(folder_path hu hq).mpr hd] at h1
        cases h1
      | unlisted hu' _ hd' h =>
        cases fileOf_unique hu hu'
        cases folderOf_unique (fileOf_head hu) hd hd'
        rw [hl] at h; cases h
      | noText hu' _ hd' h =>
        cases fileOf_unique hu hu'
        cases folderOf_unique (fileOf_head hu) hd hd'
        exact h ht
      | unread hu' _ hd' hl' h =>
        cases fileOf_unique hu hu'
        cases folderOf_unique (fileOf_head hu) hd hd'
        rw [hl] at hl'; cases hl'
        obtain ⟨pre, name, post, cs, q, rfl, h1, _, h3, h4, h5⟩ := h
        clear hl hseen
        generalize hx : pre ++ name :: post = l at hf
        induction hf generalizing pre cs with
        | nil => simp at hx
        | other hn _ ih =>
          cases pre with
          | nil => cases hx; exact hn h3
          | cons _ pre =>
            cases hx
            cases h1 with
            | other _ h1 => exact ih pre cs h1 (by assumption) rfl
            | file hn' _ _ _ => exact hn hn'
        | file hn hp hr _ ih =>
          cases pre with
          | nil =>
            cases hx
            rw [joinPath_iff.mp hp, ← joinPath_iff.mp h4, h5] at hr; cases hr
          | cons _ pre =>
            cases hx
            cases h1 with
            | other hn' _ => exact hn' hn
            | file _ _ _ h1 =>
              rename_i g
              exact ih pre _ h1 (List.forall_mem_cons.mp g).2 rfl
    obtain ⟨folder', ⟨p', dir', names', hu', hd', hl', hs'⟩, h⟩ := C70_problem (ord := ord) hs hc hnb
    cases fileOf_unique hu hu'
    cases folderOf_unique (fileOf_head hu) hd hd'
    rw [hl] at hl'; cases hl'
    rw [h]
    simp only [diagnostic, hs, hc, R.bind, seen_find hs' hseen]
  · exact C70_other (fun doc hs => ⟨hu.1, fun hc => h ⟨doc, hs, hc⟩⟩) n folder

/-- C70: exactly when a request panics. -/
theorem C70_panics (hs : s.get u = some doc) : (∃ x, AnswersFs ord s fs u (.panic x)) ↔
    Blocked fs u doc ∨ (IsFile u ∧ classify doc ≠ .ok .problem ∧ ∃ x, Answers ord s [] u (.panic x)) ∨
      (classify doc = .ok .problem ∧ ∃ folder x, Around fs u folder ∧ Answers ord s folder u (.panic x)) := by
  by_cases hb : Blocked fs u doc
  · obtain ⟨x, h⟩ := C70_blocked (ord := ord) hs hb
    exact ⟨fun _ => .inl hb, fun _ => ⟨x, 0, fun n _ => h n⟩⟩
  have hf : IsFile u := by
    by_contra hf; exact hb (.noFile hf)
  by_cases hc : classify doc = .ok .problem
  · obtain ⟨folder, ha, h⟩ := C70_problem (ord := ord) hs hc hb
    constructor
    · rintro ⟨x, N, hN⟩
      exact .inr (.inr ⟨hc, folder, x, ha, N, fun n hn => by rw [← h]; exact hN n hn⟩)
    · rintro (h' | ⟨_, h', _⟩ | ⟨_, folder', x, ⟨p', dir', names', hu', hd', hl', hs'⟩, N, hN⟩)
      · exact absurd h' hb
      · exact absurd hc h'
      · obtain ⟨p, dir, names, hu, hd, hl, hseen⟩ := ha
        cases fileOf_unique hu hu'
        cases folderOf_unique (fileOf_head hu) hd hd'
        rw [hl] at hl'; cases hl'
        refine ⟨x, N, fun n hn => ?_⟩
        rw [h, ← hN n hn]
        simp only [diagnostic, hs, hc, R.bind, seen_find hs' hseen]
  · have h (n : Nat) := C70_other (ord := ord) (s := s) (fs := fs) (u := u)
      (fun doc' hs' => by rw [hs] at hs'; cases hs'; exact ⟨hf, hc⟩) n []
    constructor
    · rintro ⟨x, N, hN⟩
      exact .inr (.inl ⟨hf, hc, x, N, fun n hn => by rw [← h]; exact hN n hn⟩)
    · rintro (h' | ⟨_, _, x, N, hN⟩ | ⟨h', _⟩)
      · exact absurd h' hb
      · exact ⟨x, N, fun n hn => by rw [h]; exact hN n hn⟩
      · exact absurd h' hc

/-! ### C71: a problem is checked against its domain -/

/-- C71: if there is one domain in the folder, no diagnostic is reported for a problem exactly if `verify` accepts it
together with this domain.  Missing: folders with several domains, see `C71_refuted`. -/
theorem C71_checked_partial (hu : FileOf u p) (hd : FolderOf p dir) (hl : fs.list dir = some names) (ht : IsText dir)
    (hf : Contents fs dir names folder) (hs : s.get u = some doc) (hc : classify doc = .ok .problem)
    (hdom : dom ∈ folder) (hc' : classify dom = .ok .domain)
    (hone : ∀ c ∈ folder, c = dom ∨ classify c = .ok .problem ∨ classify c = .ok .maybeNotHddl) :
    AnswersFs ord s fs u (.ok (.report [])) ↔ ∃ ws, Returns ord dom (some doc) (.ok ws) := by
  have hset : ProblemSetting s folder u doc dom := by
    refine ⟨hs, hc, ?_⟩
    clear hf
    induction folder with
    | nil => cases hdom
    | cons c cs ih =>
      obtain ⟨h1, h2⟩ := List.forall_mem_cons.mp hone
      by_cases he : c = dom
      · exact ⟨[], cs, by rw [he]; rfl, hc', by simp⟩
      · obtain ⟨pre, post, h3, h4, h5⟩ := ih ((List.mem_cons.mp hdom).resolve_left (Ne.symm he)) h2
        exact ⟨c :: pre, post, by rw [h3]; rfl, h4, List.forall_mem_cons.mpr ⟨h1.resolve_left he, h5⟩⟩
  rw [← C50_accepted hset]
  exact ⟨fun ⟨N, h⟩ => ⟨N, fun n hn => by rw [← C70_folder hu hd hl ht hf]; exact h n hn⟩,
    fun ⟨N, h⟩ => ⟨N, fun n hn => by rw [C70_folder hu hd hl ht hf]; exact h n hn⟩⟩

/-- C71: with several domains, the one that is listed first counts. -/
theorem C71_first {pre post : List Bytes} (hu : FileOf u p) (hd : FolderOf p dir) (hl : fs.list dir = some names)
    (ht : IsText dir) (hf : Contents fs dir names (pre ++ dom :: post)) (hs : s.get u = some doc)
    (hc : classify doc = .ok .problem) (hc' : classify dom = .ok .domain)
    (hpre : ∀ c ∈ pre, classify c = .ok .problem ∨ classify c = .ok .maybeNotHddl) :
    AnswersFs ord s fs u (.ok (.report [])) ↔ ∃ ws, Returns ord dom (some doc) (.ok ws) := by
  have hset : ProblemSetting s (pre ++ dom :: post) u doc dom := ⟨hs, hc, pre, post, rfl, hc', hpre⟩
  rw [← C50_accepted hset]
  exact ⟨fun ⟨N, h⟩ => ⟨N, fun n hn => by rw [← C70_folder hu hd hl ht hf]; exact h n hn⟩,
    fun ⟨N, h⟩ => ⟨N, fun n hn => by rw [C70_folder hu hd hl ht hf]; exact h n hn⟩⟩

/-- C71: only the document itself is taken from what the client sent: the text of a domain that is open in the editor is
not used, its file is. -/
theorem C71_disk {s s' : Store DocUrl} (h : s.get u = s'.get u) (n : Nat) :
    diagnosticFs ord n s fs u = diagnosticFs ord n s' fs u := by
  unfold diagnosticFs
  rw [h]

omit [Env] in
/-- C71: the name of the domain in a problem does not matter: with any other name it denotes the same. -/
theorem C71_name {q : Bool} {p : ProblemAST} {name dname : Name} {bs : List Tk} {l1 l2 l3 l4 l5 l6 l7 l8 l9 l10 : Nat}
    (h : FileText q (.problem p) ((lpar, l1) :: (.kw .define, l2) :: (lpar, l3) :: (.kw .problem, l4) ::
      (.ident name, l5) :: (rpar, l6) :: (lpar, l7) :: (.kw .domain, l8) :: (.ident dname, l9) :: (rpar, l10) :: bs))
    (dname' : Name) : FileText q (.problem p) ((lpar, l1) :: (.kw .define, l2) :: (lpar, l3) :: (.kw .problem, l4) ::
      (.ident name, l5) :: (rpar, l6) :: (lpar, l7) :: (.kw .domain, l8) :: (.ident dname', l9) :: (rpar, l10) :: bs) := by
  cases h with
  | problem h => exact .problem h

/-- The first tokens of the file are those of a domain with this name. -/
def DomainNamed (file : Bytes) (n : Name) : Prop := ∃ l1 l2 l3 l4 l5 l6, Feeds (LexState.init file)
  [(lpar, l1), (.kw .define, l2), (lpar, l3), (.kw .domain, l4), (.ident n, l5), (rpar, l6)]

/-- The first tokens of the file are those of a problem for the domain with this name. -/
def ProblemFor (file : Bytes) (n : Name) : Prop := ∃ name l1 l2 l3 l4 l5 l6 l7 l8 l9 l10, Feeds (LexState.init file)
  [(lpar, l1), (.kw .define, l2), (lpar, l3), (.kw .problem, l4), (.ident name, l5), (rpar, l6),
    (lpar, l7), (.kw .domain, l8), (.ident n, l9), (rpar, l10)]

/-- The first tokens of a file, computed. -/
def firstTokens : Nat → LexState → List Tk
  | 0, _ => []
  | n + 1, s =>
    match getToken s with
    | .tok t s1 => (t, s1.line) :: firstTokens n s1
    | _ => []

theorem firstTokens_feeds (n : Nat) (s : LexState) : Feeds s (firstTokens n s) := by
  induction n generalizing s with
  | zero => trivial
  | succ n ih =>
    unfold firstTokens
    split
    · exact ⟨_, by assumption, rfl, ih _⟩
    · trivial

/-- The files of the example: two domains and a problem for the domain `a`. -/
def exDomainA : Bytes := b!"(define (domain a) (:predicates (p ?x)))\n"
def exDomainB : Bytes := b!"(define (domain b) (:predicates (r ?x)))\n"
def exProblem : Bytes := b!"(define (problem q) (domain a) (:objects o)\n (:init (p o)))\n"

/-- The folder `/w` of the example, with its entries in the given order. -/
def exFiles (names : List Bytes) : FileSys where
  read p := if p = b!"/w/a.hddl" then some exDomainA else if p = b!"/w/b.hddl" then some exDomainB
    else if p = b!"/w/q.hddl" then some exProblem else none
  list p := if p = b!"/w" then some names else none

def exUrl : DocUrl := ⟨none, b!"/w/q.hddl", []⟩

theorem diagnosticFs_run {n : Nat} {x : LspAnswer} (hu : FileOf u p) (hd : FolderOf p dir) (hl : fs.list dir = some names)
    (ht : IsText dir) (hf : Contents fs dir names folder) (h : diagnosticFs ord n s fs u = .ok x) :
    AnswersFs ord s fs u (.ok x) := by
  rw [C70_folder hu hd hl ht hf] at h
  obtain ⟨N, hN⟩ := answers_of_run (by simp) h
  exact ⟨N, fun n hn => by rw [C70_folder hu hd hl ht hf]; exact hN n hn⟩

omit [Env] in
theorem exUrl_file : FileOf exUrl b!"/w/q.hddl" := ⟨⟨rfl, .inl rfl⟩, unescaped_plain (by decide)⟩

omit [Env] in
theorem exUrl_folder : FolderOf b!"/w/q.hddl" b!"/w" :=
  ⟨b!"/w", b!"q.hddl", 0, 0, by simp, by decide, by decide, rfl, by simp⟩

omit [Env] in
theorem exText : IsText b!"/w" := isText_iff.mp (by decide +kernel)

omit [Env] in
theorem ex_read (l : List Bytes) : (exFiles l).read b!"/w/a.hddl" = some exDomainA ∧
    (exFiles l).read b!"/w/b.hddl" = some exDomainB ∧ (exFiles l).read b!"/w/q.hddl" = some exProblem := by
  simp [exFiles]

omit [Env] in
theorem ex_a {l ns cs : List Bytes} (h : Contents (exFiles l) b!"/w" ns cs) :
    Contents (exFiles l) b!"/w" (b!"a.hddl" :: ns) (exDomainA :: cs) :=
  .file ⟨b!"a", by simp, .inl rfl⟩ (.inr ⟨by decide, rfl⟩) (ex_read l).1 h

omit [Env] in
theorem ex_b {l ns cs : List Bytes} (h : Contents (exFiles l) b!"/w" ns cs) :
    Contents (exFiles l) b!"/w" (b!"b.hddl" :: ns) (exDomainB :: cs) :=
  .file ⟨b!"b", by simp, .inl rfl⟩ (.inr ⟨by decide, rfl⟩) (ex_read l).2.1 h

omit [Env] in
theorem ex_q {l ns cs : List Bytes} (h : Contents (exFiles l) b!"/w" ns cs) :
    Contents (exFiles l) b!"/w" (b!"q.hddl" :: ns) (exProblem :: cs) :=
  .file ⟨b!"q", by simp, .inl rfl⟩ (.inr ⟨by decide, rfl⟩) (ex_read l).2.2 h

omit [Env] in
theorem ex_txt {l ns cs : List Bytes} (h : Contents (exFiles l) b!"/w" ns cs) :
    Contents (exFiles l) b!"/w" (b!"readme.txt" :: ns) cs :=
  .other (by rw [← isHddlName_iff]; decide +kernel) h

omit [Env] in
/-- C71 does not hold for folders with several domains.  In this folder is the domain that the problem names, and `verify`
accepts the problem with it, but another domain is listed first, and the server reports an error.  If the folder is listed
in another order, it reports none. -/
theorem C71_refuted : ∃ (fs fs' : FileSys) (s : Store DocUrl) (u : DocUrl) (names names' folder : List Bytes)
    (doc dom : Bytes) (n : Name) (x : Diag), FileOf u b!"/w/q.hddl" ∧
    fs.list b!"/w" = some names ∧ Contents fs b!"/w" names folder ∧ s.get u = some doc ∧ doc ∈ folder ∧
    @ProblemFor Env.plain doc n ∧ dom ∈ folder ∧ @DomainNamed Env.plain dom n ∧
    @Returns Env.plain HashOrd.id dom (some doc) (.ok []) ∧
    @AnswersFs Env.plain HashOrd.id s fs u (.ok (.report [x])) ∧
    fs'.read = fs.read ∧ fs'.list b!"/w" = some names' ∧ names'.Perm names ∧
    @AnswersFs Env.plain HashOrd.id s fs' u (.ok (.report [])) := by
  refine ⟨exFiles [b!"b.hddl", b!"readme.txt", b!"a.hddl", b!"q.hddl"],
    exFiles [b!"a.hddl", b!"readme.txt", b!"b.hddl", b!"q.hddl"], [(exUrl, exProblem)], exUrl, _, _, _, exProblem, exDomainA, b!"a",
    ⟨1, 2, .error, [.s "line ", .i 2, .s ": ", .s "predicate", .s " ", .n b!"p", .s " is not defined."]⟩,
    exUrl_file, rfl, ex_b (ex_txt (ex_a (ex_q .nil))), rfl, by simp, ?_, by simp, ?_, ?_, ?_, rfl, rfl, ?_, ?_⟩
  · have := @firstTokens_feeds Env.plain 10 (LexState.init exProblem)
    rw [show @firstTokens Env.plain 10 (LexState.init exProblem) = [(lpar, 1), (.kw .define, 1), (lpar, 1), (.kw .problem, 1),
      (.ident b!"q", 1), (rpar, 1), (lpar, 1), (.kw .domain, 1), (.ident b!"a", 1), (rpar, 1)] by decide +kernel] at this
    exact ⟨_, _, _, _, _, _, _, _, _, _, _, this⟩
  · have := @firstTokens_feeds Env.plain 6 (LexState.init exDomainA)
    rw [show @firstTokens Env.plain 6 (LexState.init exDomainA) = [(lpar, 1), (.kw .define, 1), (lpar, 1), (.kw .domain, 1),
      (.ident b!"a", 1), (rpar, 1)] by decide +kernel] at this
    exact ⟨_, _, _, _, _, _, this⟩
  · exact @returns_run Env.plain _ _ _ 40 _ (by decide +kernel) (by simp)
  · exact @diagnosticFs_run Env.plain _ _ _ _ _ _ _ _ 60 _ exUrl_file exUrl_folder rfl exText (ex_b (ex_txt (ex_a (ex_q .nil))))
      (by decide +kernel)
  · decide
  · exact @diagnosticFs_run Env.plain _ _ _ _ _ _ _ _ 60 _ exUrl_file exUrl_folder rfl exText (ex_a (ex_txt (ex_b (ex_q .nil))))
      (by decide +kernel)

omit [Env] in
/-- Instances: a folder with one domain, whose problem is accepted; a document that has not been saved; a problem in a
folder that does not exist. -/
example : Contents (exFiles [b!"a.hddl", b!"q.hddl"]) b!"/w" [b!"a.hddl", b!"q.hddl"] [exDomainA, exProblem] ∧
    @classify Env.plain exProblem = .ok .problem ∧ @classify Env.plain exDomainA = .ok .domain ∧
    @Returns Env.plain HashOrd.id exDomainA (some exProblem) (.ok []) ∧
    @Blocked Env.plain (exFiles []) ⟨none, b!"Untitled-1", b!"untitled"⟩ exProblem ∧
    @Blocked Env.plain (exFiles []) ⟨none, b!"/x/q.hddl", []⟩ exProblem ∧
    @Blocked Env.plain (exFiles [b!"gone.hddl"]) exUrl exProblem ∧
    ¬ @Blocked Env.plain (exFiles [b!"a.hddl", b!"gone.hddl"]) ⟨none, b!"/x/a.hddl", []⟩ exDomainA := by
  refine ⟨ex_a (ex_q .nil),
    by decide +kernel, by decide +kernel, @returns_run Env.plain _ _ _ 40 _ (by decide +kernel) (by simp),
    @Blocked.noFile Env.plain _ _ _ (fun h => nomatch h.1), ?_, ?_, ?_⟩
  · exact @Blocked.unlisted Env.plain _ _ _ b!"/x/q.hddl" b!"/x" ⟨⟨rfl, .inl rfl⟩, unescaped_plain (by decide)⟩ (by decide +kernel)
      ⟨b!"/x", b!"q.hddl", 0, 0, by simp, by decide, by decide, rfl, by simp⟩ (by decide +kernel)
  · exact @Blocked.unread Env.plain _ _ _ _ _ _ exUrl_file (by decide +kernel) exUrl_folder rfl ⟨[], b!"gone.hddl", [], [], b!"/w/gone.hddl", rfl, .nil, by simp,
      ⟨b!"gone", by simp, .inl rfl⟩, .inr ⟨by decide, rfl⟩, by decide +kernel⟩
  · have hd : @classify Env.plain exDomainA = .ok .domain := by decide +kernel
    intro h
    cases h with
    | noFile h => exact h ⟨rfl, .inl rfl⟩
    | noFolder _ h _ => rw [hd] at h; cases h
    | unlisted _ h _ _ => rw [hd] at h; cases h
    | noText _ h _ _ => rw [hd] at h; cases h
    | unread _ h _ _ _ => rw [hd] at h; cases h

end Verif
