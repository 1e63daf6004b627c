import Verif.Props.Unsupported
import Verif.Spec.Expected

/-! C94: a syntax error asks for a token that would have been right. -/

namespace Verif

open Spec

variable [Env]

omit [Env] in
/-- Every text asks for a token that can be written. -/
theorem says_spelled {m : Text} {K : Token → Prop} (h : Says m K) : ∃ u w, K u ∧ Spells u w := by
  have hx : Spells (.ident b!"x") b!"x" := .name ⟨by decide, ⟨120, [], rfl, by decide, by decide⟩, by simp [plainTable]⟩
  cases h with
  | open_ | components => exact ⟨lpar, _, by simp, .lparen⟩
  | close | closeProblem | closeSubtask | closeAction | closeTask | terms | termsOf | probability | requirement =>
    exact ⟨rpar, _, by simp, .rparen⟩
  | name | nameSubtask | nameNotEqual | nameEqual | nameAfter | nameAnother | nameDecomposed =>
    exact ⟨_, _, ⟨_, rfl⟩, hx⟩
  | formula => exact ⟨_, _, .inl ⟨_, rfl⟩, hx⟩
  | subtasks => exact ⟨_, _, .inr ⟨_, rfl⟩, hx⟩
  | less => exact ⟨_, _, rfl, .lt⟩
  | orderings => exact ⟨_, _, .inr rfl, .lt⟩
  | equality => exact ⟨_, _, rfl, .equal⟩
  | constraint => exact ⟨_, _, .inr rfl, .equal⟩
  | constraints => exact ⟨_, _, .inr (.inr rfl), .equal⟩
  | network => exact ⟨.kw .ordering, _, rfl, .colon (w := b!"ordering") (by decide)⟩
  | htn => exact ⟨.kw .subtasks, _, by simp, .colon (w := b!"subtasks") (by decide)⟩
  | initial | parameters | parametersOf => exact ⟨.kw .parameters, _, by simp, .colon (w := b!"parameters") (by decide)⟩
  | task => exact ⟨.kw .task, _, by simp, .colon (w := b!"task") (by decide)⟩
  | preconditions | decomposition => exact ⟨.kw .precondition, _, by simp, .colon (w := b!"precondition") (by decide)⟩
  | effects => exact ⟨.kw .effect, _, by simp, .colon (w := b!"effect") (by decide)⟩
  | block => exact ⟨.kw .action, _, by simp, .colon (w := b!"action") (by decide)⟩
  | problemBlock => exact ⟨.kw .init, _, by simp, .colon (w := b!"init") (by decide)⟩
  | define => exact ⟨.kw .define, _, by simp, .plain (w := b!"define") (by decide)⟩
  | domain | document => exact ⟨.kw .domain, _, by simp, .plain (w := b!"domain") (by decide)⟩

omit [Env] in
/-- No text asks for the end of the file. -/
theorem says_eof {m : Text} {K : Token → Prop} (h : Says m K) : ¬ K .eof := by
  cases h <;> simp [FormulaStart]

theorem feeds_last {c : List Tk} {t : Token} {l : Nat} {s : LexState} (h : Feeds s (c ++ [(t, l)])) :
    ∃ s1 s2, getToken s1 = .tok t s2 := by
  induction c generalizing s with
  | nil => obtain ⟨s1, h1, _⟩ := h; exact ⟨_, _, h1⟩
  | cons x c ih => obtain ⟨s1, _, _, h1⟩ := h; exact ih h1

/-- C94: a syntax error is reported at the first wrong token, and every token that its text asks for would have been right
there: some file that starts with the text before the wrong token and with that token is parsed. -/
theorem C94_right (fuel : Nat) (file : Bytes) (e : SynError) (h : parse fuel file = .err (.syntactic e)) :
    ∃ c t, FirstWrong file c t e.pos ∧ ∃ K, Says e.expected K ∧ ¬ K t ∧
      ∀ u w, K u → Spells u w → ∀ l, Startable (c ++ [(u, l)]) := by
  obtain ⟨c, t, h1, _, ⟨h3, K, h5, h6⟩, h4⟩ := (file_bad fuel file).syn e (parse_err_file h)
  have key : ∀ u, K u → Writable u → ∀ l, Startable (c ++ [(u, l)]) := by
    intro u hu hw l
    obtain ⟨f, d, r, a, N, j1, j2, j3⟩ := parses_followed h1.append hw (h6 u hu l)
    exact ⟨f, a, d, r, ⟨N, j3⟩, renamed_iff_same.1 j1, j2⟩
  have hw : FirstWrong file c t e.pos := by
    obtain ⟨f, c', r, a, N, i1, i2, i3⟩ :=
      parses_completed h1.append (Live.ext (n := fuel) h3 h1.append (by simp [h]) (by simp [h]))
    refine ⟨h1, ⟨f, a, c', r, ⟨N, i3⟩, renamed_iff_same.1 i1, i2⟩, ?_⟩
    rintro ⟨f, a, d, r, ⟨N, i1⟩, i2, i3⟩
    obtain ⟨c', d', rfl, i4, i5⟩ := (renamed_iff_same.2 i2).unappend
    obtain ⟨l', us, rfl, i6⟩ := i5.uncons
    cases i6.unnil
    rw [rnToken_id] at i3
    obtain ⟨M, i7⟩ := h4 () c' l' _ i4 i3.append
    have i8 := i1 (max N M) (by omega)
    unfold parse at i8
    rw [i7 (max N M) (by omega)] at i8
    cases i8
  refine ⟨c, t, hw, K, h5, fun ht => ?_, fun u w hu hs => key u hu (writable_spells (fun he => says_eof h5 (he ▸ hu)) hs)⟩
  have hne : t ≠ .eof := fun he => says_eof h5 (he ▸ ht)
  refine hw.2.2 (key t ht ?_ _)
  obtain ⟨s, s', hl⟩ := feeds_last h1
  exact writable_read hl hne

/-- The fixed parts of a text. -/
def fixedParts (m : Text) : List String := m.filterMap fun | .s a => some a | _ => none

/-- The texts with one reading, by what they ask for. -/
def askGroups : List (List (List String) × (Token → Prop)) := [
  (askOpen.map ([·]), (· = lpar)),
  (askClose.map ([·]) ++ [["the block of the definition of problem '", "' is not closed with ')'"],
    ["')' to close the block of "], ["closing the scope of ", " using ')'"], ["')' after definition of "]], (· = rpar)),
  (askName.map ([·]) ++ [["a subtask name for ", "!=..."], ["right hand side of ", "!=..."], ["right hand side of ", "=..."],
    ["the task ids that come after "], ["another task id after "], ["The task that method ", " decomposes"]],
    (fun t => ∃ x, t = .ident x)),
  ([["a boolean formula"]], FormulaStart),
  ([["either a ')' or an identifier"], ["either a term for ", ", or ')'"]], (fun t => t = rpar ∨ ∃ x, t = .ident x)),
  ([["a probability or ')' to close the probabilistic block"]], (fun t => t = rpar ∨ ∃ w, t = .num w)),
  ([["either a requirement or a ')'"]], (fun t => t = rpar ∨ ∃ r, t = .req r)),
  ([["character '<' to start an ordering constraint"]], (· = .op .lt)),
  ([["ordering constraints"]], (fun t => t = .op .and ∨ t = .op .lt)),
  ([["equality keyword '='"]], (· = .op .equal)),
  ([["either an equalilty or non-equality constraint"]], (fun t => t = .op .not ∨ t = .op .equal)),
  ([["constraint declerations"]], (fun t => t = .op .and ∨ t = .op .not ∨ t = .op .equal)),
  ([["the (potentially empty) ordering constraints of the task network"]], (· = .kw .ordering)),
  ([[":subtasks or :ordered-subtasks keyword"]], (fun t => t = .kw .subtasks ∨ t = .kw .orderedSubtasks)),
  ([["expected the definition of the initial task network"]],
    (fun t => t = .kw .parameters ∨ t = .kw .subtasks ∨ t = .kw .orderedSubtasks)),
  ([["a (potentially empty) list of parameters after defininig "], ["The parameters of method ", " "]], (· = .kw .parameters)),
  ([["keyword :task"]], (· = .kw .task)),
  ([["(potentially empty) preconditions of "]], (· = .kw .precondition)),
  ([["(potentially empty) effects of "]], (· = .kw .effect)),
  ([["Either preconditions for ", " or its decomposition"]],
    (fun t => t = .kw .precondition ∨ t = .kw .subtasks ∨ t = .kw .orderedSubtasks)),
  ([["a keyword"]], (fun t => t ∈ ([.kw .predicates, .kw .functions, .kw .task, .kw .method, .kw .action,
      .kw .requirements, .kw .types, .kw .constants] : List Token))),
  ([["either ')' to close the definition of ", ", or '(' to start defining new components"]], (fun t => t = rpar ∨ t = lpar)),
  ([["a keyword for block definition"]], (fun t => t ∈ ([.kw .requirements, .kw .objects, .kw .htn,
      .kw .goal, .kw .init] : List Token))),
  ([["keyword 'define'"]], (· = .kw .define)),
  ([["keyword 'domain'"]], (· = .kw .domain)),
  ([["either keyword 'domain' or 'problem'"]], (fun t => t = .kw .domain ∨ t = .kw .problem))]

/-- The group of a text. -/
def askGroup (m : Text) : Nat := (askGroups.map Prod.fst).findIdx fun g => g.contains (fixedParts m)

/-- What a group asks for. -/
def groupAsks (i : Nat) : Token → Prop := (askGroups.map Prod.snd).getD i fun _ => False

omit [Env] in
theorem askGroup_blank (m : Text) : askGroup m = askGroup (m.map fun | .s a => .s a | _ => .n []) := by
  have : fixedParts (m.map fun | .s a => .s a | _ => .n []) = fixedParts m := by
    unfold fixedParts
    rw [List.filterMap_map]
    refine congrArg (fun f => List.filterMap f m) (funext fun x => ?_)
    cases x <;> rfl
  unfold askGroup
  rw [this]

omit [Env] in
theorem says_group {m : Text} {K : Token → Prop} (h : Says m K) :
    K = groupAsks (askGroup m) ∨ m = [.s "subtask declarations"] ∨ m = [.s "a formula following the probability"] := by
  have go : ∀ (i : Nat) (K' : Token → Prop), askGroup m = i → groupAsks i = K' → K = K' → 
      K = groupAsks (askGroup m) ∨ m = [.s "subtask declarations"] ∨ m = [.s "a formula following the probability"] :=
    fun i K' h1 h2 h3 => .inl (by rw [h1, h2, h3])
  have h1 : ∀ m ∈ askOpen, askGroup [.s m] = 0 := by decide +kernel
  have h2 : ∀ m ∈ askClose, askGroup [.s m] = 1 := by decide +kernel
  have h3 : ∀ m ∈ askName, askGroup [.s m] = 2 := by decide +kernel
  cases h with
  | open_ hm => exact go 0 _ (h1 _ hm) rfl rfl
  | close hm => exact go 1 _ (h2 _ hm) rfl rfl
  | name hm => exact go 2 _ (h3 _ hm) rfl rfl
  | formula hm =>
    rw [askFormula, List.mem_cons, List.mem_singleton] at hm
    rcases hm with rfl | rfl
    · exact go 3 _ (by decide +kernel) rfl rfl
    · exact .inr (.inr rfl)
  | subtasks => exact .inr (.inl rfl)
  | closeProblem | closeSubtask | closeAction | closeTask =>
    exact go 1 _ (by rw [askGroup_blank]; simp only [List.map_cons, List.map_nil]; decide +kernel) rfl rfl
  | nameSubtask | nameNotEqual | nameEqual | nameAfter | nameAnother | nameDecomposed =>
    exact go 2 _ (by rw [askGroup_blank]; simp only [List.map_cons, List.map_nil]; decide +kernel) rfl rfl
  | terms | termsOf =>
    exact go 4 _ (by rw [askGroup_blank]; simp only [List.map_cons, List.map_nil]; decide +kernel) rfl rfl
  | probability =>
    exact go 5 _ (by rw [askGroup_blank]; simp only [List.map_cons, List.map_nil]; decide +kernel) rfl rfl
  | requirement =>
    exact go 6 _ (by rw [askGroup_blank]; simp only [List.map_cons, List.map_nil]; decide +kernel) rfl rfl
  | less =>
    exact go 7 _ (by rw [askGroup_blank]; simp only [List.map_cons, List.map_nil]; decide +kernel) rfl rfl
  | orderings =>
    exact go 8 _ (by rw [askGroup_blank]; simp only [List.map_cons, List.map_nil]; decide +kernel) rfl rfl
  | equality =>
    exact go 9 _ (by rw [askGroup_blank]; simp only [List.map_cons, List.map_nil]; decide +kernel) rfl rfl
  | constraint =>
    exact go 10 _ (by rw [askGroup_blank]; simp only [List.map_cons, List.map_nil]; decide +kernel) rfl rfl
  | constraints =>
    exact go 11 _ (by rw [askGroup_blank]; simp only [List.map_cons, List.map_nil]; decide +kernel) rfl rfl
  | network =>
    exact go 12 _ (by rw [askGroup_blank]; simp only [List.map_cons, List.map_nil]; decide +kernel) rfl rfl
  | htn =>
    exact go 13 _ (by rw [askGroup_blank]; simp only [List.map_cons, List.map_nil]; decide +kernel) rfl rfl
  | initial =>
    exact go 14 _ (by rw [askGroup_blank]; simp only [List.map_cons, List.map_nil]; decide +kernel) rfl rfl
  | parameters | parametersOf =>
    exact go 15 _ (by rw [askGroup_blank]; simp only [List.map_cons, List.map_nil]; decide +kernel) rfl rfl
  | task =>
    exact go 16 _ (by rw [askGroup_blank]; simp only [List.map_cons, List.map_nil]; decide +kernel) rfl rfl
  | preconditions =>
    exact go 17 _ (by rw [askGroup_blank]; simp only [List.map_cons, List.map_nil]; decide +kernel) rfl rfl
  | effects =>
    exact go 18 _ (by rw [askGroup_blank]; simp only [List.map_cons, List.map_nil]; decide +kernel) rfl rfl
  | decomposition =>
    exact go 19 _ (by rw [askGroup_blank]; simp only [List.map_cons, List.map_nil]; decide +kernel) rfl rfl
  | block =>
    exact go 20 _ (by rw [askGroup_blank]; simp only [List.map_cons, List.map_nil]; decide +kernel) rfl rfl
  | components =>
    exact go 21 _ (by rw [askGroup_blank]; simp only [List.map_cons, List.map_nil]; decide +kernel) rfl rfl
  | problemBlock =>
    exact go 22 _ (by rw [askGroup_blank]; simp only [List.map_cons, List.map_nil]; decide +kernel) rfl rfl
  | define =>
    exact go 23 _ (by rw [askGroup_blank]; simp only [List.map_cons, List.map_nil]; decide +kernel) rfl rfl
  | domain =>
    exact go 24 _ (by rw [askGroup_blank]; simp only [List.map_cons, List.map_nil]; decide +kernel) rfl rfl
  | document =>
    exact go 25 _ (by rw [askGroup_blank]; simp only [List.map_cons, List.map_nil]; decide +kernel) rfl rfl

omit [Env] in
/-- Every text has one reading, with two exceptions. -/
theorem says_one {m : Text} {K K' : Token → Prop} (h : Says m K) (h' : Says m K')
    (h1 : m ≠ [.s "subtask declarations"]) (h2 : m ≠ [.s "a formula following the probability"]) : K = K' := by
  rcases says_group h with h3 | h3 | h3
  · rcases says_group h' with h4 | h4 | h4
    · rw [h3, h4]
    · exact absurd h4 h1
    · exact absurd h4 h2
  · exact absurd h3 h1
  · exact absurd h3 h2

/-- C94: the text of an error cannot be misunderstood, with two exceptions: whatever it asks for would have been right. -/
theorem C94_all (fuel : Nat) (file : Bytes) (e : SynError) (h : parse fuel file = .err (.syntactic e))
    (h1 : e.expected ≠ [.s "subtask declarations"]) (h2 : e.expected ≠ [.s "a formula following the probability"])
    (c : List Tk) (t : Token) (hc : FirstWrong file c t e.pos) (K : Token → Prop) (hK : Says e.expected K) :
    ¬ K t ∧ ∀ u w, K u → Spells u w → ∀ l, Startable (c ++ [(u, l)]) := by
  obtain ⟨c', t', i1, K', i2, i3, i4⟩ := C94_right fuel file e h
  obtain ⟨rfl, rfl, _⟩ := wrong_unique i1 hc
  cases says_one hK i2 h1 h2
  exact ⟨i3, i4⟩

/-- C94: hence the file can be repaired: there is a token that the text asks for, and some file that starts with the text
before the wrong token and with that token is parsed. -/
theorem C94_repair (fuel : Nat) (file : Bytes) (e : SynError) (h : parse fuel file = .err (.syntactic e)) :
    ∃ c t, FirstWrong file c t e.pos ∧ ∃ K u w, Says e.expected K ∧ K u ∧ Spells u w ∧
      ∃ file' a c' l r, Parses file' a ∧ SameTokens c c' ∧ Feeds (LexState.init file') (c' ++ (u, l) :: r) := by
  obtain ⟨c, t, h1, K, h2, _, h3⟩ := C94_right fuel file e h
  obtain ⟨u, w, h4, h5⟩ := says_spelled h2
  obtain ⟨f, a, d, r, i1, i2, i3⟩ := h3 u w h4 h5 0
  obtain ⟨c', d', rfl, i4, i5⟩ := (renamed_iff_same.2 i2).unappend
  obtain ⟨l', us, rfl, i6⟩ := i5.uncons
  cases i6.unnil
  rw [rnToken_id] at i3
  exact ⟨c, t, h1, K, u, w, h2, h4, h5, f, a, c', l', r, i1, renamed_iff_same.1 i4, by simpa using i3⟩

/-- C94: doing what the text asks for makes progress: in every file that continues the right part with a token that is asked
for, the first wrong token, if there is one, comes later. -/
theorem C94_progress (fuel : Nat) (file : Bytes) (e : SynError) (h : parse fuel file = .err (.syntactic e)) :
    ∃ c t, FirstWrong file c t e.pos ∧ ∃ K, Says e.expected K ∧ ∀ u w file' c' l r, K u → Spells u w → SameTokens c c' →
      Feeds (LexState.init file') (c' ++ (u, l) :: r) → ∀ c'' t' l', FirstWrong file' c'' t' l' → c.length < c''.length := by
  obtain ⟨c, t, h1, K, h2, _, h3⟩ := C94_right fuel file e h
  refine ⟨c, t, h1, K, h2, fun u w file' c' l r hu hw hs hf c'' t' l' ⟨i1, _, i3⟩ => ?_⟩
  have hl : c'.length = c.length := by simpa using congrArg List.length hs
  have h4 : Startable (c' ++ [(u, l)]) := (h3 u w hu hw l).same (by unfold SameTokens at *; simp [hs])
  by_contra hlt
  have hf' : Feeds (LexState.init file') (c' ++ [(u, l)]) := by
    have : c' ++ (u, l) :: r = (c' ++ [(u, l)]) ++ r := by simp
    rw [this] at hf
    exact hf.append
  obtain ⟨r', hr⟩ := feeds_prefix i1 hf' (by simp; omega)
  rw [hr] at h4
  exact i3 h4.start

theorem returns_syntactic {ord : HashOrd} {f : Bytes} {prob : Option Bytes} {e : SynError}
    (h : Returns ord f prob (.err (.syntactic e))) :
    (∃ n, parse n f = .err (.syntactic e)) ∨
      ∃ g n, prob = some g ∧ (∃ ws, Returns ord f none (.ok ws)) ∧ parse n g = .err (.syntactic e) := by
  obtain ⟨_, N, hN⟩ := h
  have hv := hN N (Nat.le_refl _)
  unfold verify at hv
  cases hp : parse N f with
  | err e' => rw [hp] at hv; cases hv; exact .inl ⟨N, hp⟩
  | panic => rw [hp] at hv; cases hv
  | timeout => rw [hp] at hv; cases hv
  | ok a =>
    rw [hp] at hv
    cases a with
    | problem => cases hv
    | domain d =>
      simp only [R.bind] at hv
      cases hd : verifyDomain ord N d with
      | err e' =>
        rw [hd] at hv
        cases hv
        obtain ⟨se, h3, _⟩ := checkDomain_report (verifyDomain_err.1 hd)
        cases h3
      | panic => rw [hd] at hv; cases hv
      | timeout => rw [hd] at hv; cases hv
      | ok st =>
        rw [hd] at hv
        cases prob with
        | none => cases hv
        | some g =>
          have hr : Returns ord f none (.ok st.warnings) := returns_run (n := N)
            (by unfold verify; rw [hp]; simp only [R.bind]; rw [hd]) (by simp)
          simp only at hv
          cases hg : parse N g with
          | err e' => rw [hg] at hv; cases hv; exact .inr ⟨g, N, rfl, ⟨_, hr⟩, hg⟩
          | panic => rw [hg] at hv; cases hv
          | timeout => rw [hg] at hv; cases hv
          | ok a =>
            rw [hg] at hv
            cases a with
            | domain => cases hv
            | problem p =>
              have hf : Parses f (.domain d) := ⟨N, fun n hn => by rw [parse_fuel hn (by simp [hp]), hp]⟩
              have hac := (returns_ok_none hf).1 hr
              have hac' := hac
              obtain ⟨M, hM⟩ := hac'
              have h1 := hN (max N M) (by omega)
              unfold verify at h1
              rw [parse_fuel (by omega : N ≤ max N M) (by simp [hp]), hp] at h1
              simp only [R.bind] at h1
              rw [hM _ (by omega), parse_fuel (by omega : N ≤ max N M) (by simp [hg]), hg] at h1
              obtain ⟨se, h3, _⟩ := verifyProblem_report (accepts_iff.mp ⟨_, hac⟩) h1
              cases h3

/-- C94 for the answers of the checker: the error is about the domain file, or about the problem file if the domain is
accepted. -/
theorem C94_answer {ord : HashOrd} {f : Bytes} {prob : Option Bytes} {e : SynError}
    (h : Returns ord f prob (.err (.syntactic e))) :
    ∃ file, InFile ord f prob file ∧ ∃ c t, FirstWrong file c t e.pos ∧ ∃ K, Says e.expected K ∧ ¬ K t ∧
      ∀ u w, K u → Spells u w → ∀ l, Startable (c ++ [(u, l)]) := by
  rcases returns_syntactic h with ⟨n, hn⟩ | ⟨g, n, rfl, hg, hn⟩
  · exact ⟨f, .inl rfl, C94_right n f e hn⟩
  · exact ⟨g, .inr ⟨rfl, hg⟩, C94_right n g e hn⟩

/-! ### Instances -/

/-- A predicate with a nested parenthesis, inside a formula. -/
def askDomain : Bytes := b!"(define (domain d)\n(:action m :parameters ()\n:effect (p (q))))\n"

/-- Its text up to the wrong parenthesis. -/
def askToks : List Tk :=
  [(lpar, 1), (.kw .define, 1), (lpar, 1), (.kw .domain, 1), (.ident b!"d", 1), (rpar, 1),
    (lpar, 2), (.kw .action, 2), (.ident b!"m", 2), (.kw .parameters, 2), (lpar, 2), (rpar, 2),
    (.kw .effect, 3), (lpar, 3), (.ident b!"p", 3)]

/-- The same with a closing parenthesis in that place. -/
def askRepaired : Bytes := b!"(define (domain d)\n(:action m :parameters ()\n:effect (p)))\n"

omit [Env] in
theorem ask_error : @parse Env.plain 200 askDomain = .err (.syntactic ⟨[.s "an identifier"], lpar, 3⟩) := by decide +kernel

omit [Env] in
theorem ask_closed (l : Nat) : @Startable Env.plain (askToks ++ [(rpar, l)]) := by
  have hp : (match @parse Env.plain 200 askRepaired with | .ok _ => true | _ => false) = true := by decide +kernel
  cases ha : @parse Env.plain 200 askRepaired with
  | ok a =>
    refine ⟨askRepaired, a, askToks ++ [(rpar, 3)], [], ⟨200, fun n hn => ?_⟩, by simp [SameTokens], ?_⟩
    · rw [@parse_fuel Env.plain _ _ _ hn (by simp [ha]), ha]
    · exact @feeds_run Env.plain _ _ (by decide +kernel)
  | err => rw [ha] at hp; cases hp
  | panic => rw [ha] at hp; cases hp
  | timeout => rw [ha] at hp; cases hp

omit [Env] in
theorem ask_wrong : @FirstWrong Env.plain askDomain askToks lpar 3 := by
  have hf : @Feeds Env.plain (LexState.init askDomain) (askToks ++ [(lpar, 3)]) := @feeds_run Env.plain _ _ (by decide +kernel)
  refine ⟨hf, @Startable.start Env.plain _ _ (ask_closed 3), @C93_never Env.plain _ _ _ ?_ ?_⟩
  · exact .nested (m := []) ⟨askToks.dropLast.dropLast, 3, b!"p", 3, rfl, .nil⟩ (.inr rfl)
  · exact @not_whole Env.plain askDomain _ 200 _ (@Feeds.append Env.plain _ _ _ hf) ask_error

omit [Env] in
/-- A name would have been right, as the error says. -/
example (x : Name) (w : Bytes) (h : Spells (.ident x) w) : @Startable Env.plain (askToks ++ [(.ident x, 3)]) :=
  (@C94_all Env.plain 200 askDomain _ ask_error (by decide) (by decide) askToks lpar ask_wrong _ (.name (by decide))).2 _ w
    ⟨x, rfl⟩ h 3

omit [Env] in
/-- C94, the limits: the text of an error need not ask for everything that would have been right.  Here it asks for a name
only, but a closing parenthesis would have been right as well. -/
theorem C94_not_all : ∃ file n e c t, @parse Env.plain n file = .err (.syntactic e) ∧ @FirstWrong Env.plain file c t e.pos ∧
    (∀ K, Says e.expected K → ¬ K rpar) ∧ ∀ l, @Startable Env.plain (c ++ [(rpar, l)]) := by
  refine ⟨askDomain, 200, _, askToks, lpar, ask_error, ask_wrong, fun K hK => ?_, fun l => ?_⟩
  · cases says_one hK (.name (by decide)) (by decide) (by decide)
    simp
  · exact ask_closed l

end Verif
