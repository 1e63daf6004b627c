import Verif.Proofs.Parts
import Verif.Proofs.Swapped
import Verif.Props.Sequence

/-! C86: the parts of a domain can be analysed separately. -/

namespace Verif

open Spec

variable [Env] {ord ord' ordu : HashOrd} {f g k : Bytes} {prob prob' : Option Bytes} {d e u : DomainAST} {md me mu : MetaData}

omit [Env] in
theorem portion (h : PartOf (rnDomain id d) (rnDomain id u)) (hd : DomainOk d) (hu : DomainOk u) : Portion d u where
  covered := h.whole.covered
  back := by
    have h1 : ∀ m, ∃ m', outline m' = outline m ∧ (m ∈ u.methods → m.task.name ∈ d.tasks.map (·.name) → m' ∈ d.methods) := by
      intro m
      by_cases hm : m ∈ u.methods ∧ m.task.name ∈ d.tasks.map (·.name)
      · have h2 : ∃ t ∈ (rnDomain id d).tasks, t.name = (rnMethod id m).task.name := by
          rw [← taskNames_rn] at hm
          exact List.mem_map.mp hm.2
        obtain ⟨m', h3, h4⟩ := List.mem_map.mp (h.methods _ (List.mem_map_of_mem hm.1) h2)
        exact ⟨m', by rw [← outline_rn m', h4, outline_rn], fun _ _ => h3⟩
      · exact ⟨m, rfl, fun h1 h2 => absurd ⟨h1, h2⟩ hm⟩
    choose ψ h2 h3 using h1
    exact ⟨ψ, h2, h3⟩
  action := by
    intro x hx ha
    rw [actionName_iff, ← actionNames_rn] at ha ⊢
    rw [← taskNames_rn] at hx
    obtain ⟨a, hau, rfl⟩ := List.mem_map.mp ha
    by_cases hm : a ∈ (rnDomain id d).actions
    · exact List.mem_map_of_mem hm
    · obtain ⟨t, ht, h1⟩ := List.mem_map.mp hx
      exact absurd h1 (h.whole.fresh a hau hm t ht)
  actions := fun _ => h.whole.actionName
  tasks := fun _ => h.whole.taskName
  task := by
    intro x hx ht
    rw [actionName_iff, ← actionNames_rn] at hx
    rw [← taskNames_rn] at ht ⊢
    obtain ⟨t, htu, rfl⟩ := List.mem_map.mp ht
    by_cases hm : t ∈ (rnDomain id d).tasks
    · exact List.mem_map_of_mem hm
    · obtain ⟨a, ha, h1⟩ := List.mem_map.mp hx
      exact absurd h1.symm (h.fresh t htu hm a ha)
  ok := hd
  okWhole := hu

/-! ### Acceptance -/

/-- C86: a domain that consists of two accepted parts is accepted exactly if no name is declared twice and the types have no cycle. -/
theorem C86_accepted (hf : Parses f (.domain d)) (hg : Parses g (.domain e)) (hk : Parses k (.domain u))
    (h : Merged (rnDomain id d) (rnDomain id e) (rnDomain id u)) (hc : ConstantsOnce (rnDomain id u))
    (ha : ∃ ws, Returns ord f none (.ok ws)) (hb : ∃ ws, Returns ord' g none (.ok ws)) :
    (∃ ws, Returns ordu k none (.ok ws)) ↔ Compatible (rnDomain id u) := by
  rw [returns_domain_iff hf, ← domainOk_lines] at ha
  rw [returns_domain_iff hg, ← domainOk_lines] at hb
  rw [returns_domain_iff hk, ← domainOk_lines]
  exact domainOk_merged h hc ha hb

/-! ### One part -/

/-- C86: tasks of a part are reported to be nullable in the whole exactly if they are in the part, and are warned about in the whole
exactly if they are in the part, provided that the whole is uniform.  The class of the whole is not lower. -/
theorem C86_part (hf : Parses f (.domain d)) (hk : Parses k (.domain u)) (h : PartOf (rnDomain id d) (rnDomain id u))
    (ws wu : List Warning) (ha : Returns ord f prob (.ok ws)) (hr : Returns ordu k prob' (.ok wu)) (hu : Uniform u) :
    (∀ t ∈ d.tasks, t.name ∈ wu.map (·.symbol) ↔ t.name ∈ ws.map (·.symbol)) ∧
    ∀ md mu, Metadata ord f md → Metadata ordu k mu →
      (∀ t ∈ d.tasks, t.name ∈ mu.nullables ↔ t.name ∈ md.nullables) ∧ md.recursion.cls.rank ≤ mu.recursion.cls.rank := by
  have hda := returns_accepts hf ha
  have hua := returns_accepts hk hr
  have hd := accepts_iff.mp ⟨_, hda⟩
  have hdu := accepts_iff.mp ⟨_, hua⟩
  have hp := portion h hd hdu
  have hud := hp.uniform hu
  constructor
  · intro t ht
    have hx : Declared d t.name := .inl ⟨t, ht, rfl⟩
    obtain ⟨t', ht', he⟩ := List.mem_map.mp (hp.tasks _ (List.mem_map_of_mem ht))
    have e1 : t.name ∈ ws.map (·.symbol) ↔ ⟨t.name, t.pos⟩ ∈ ws := by
      refine ⟨fun h => ?_, fun h => List.mem_map.mpr ⟨_, h, rfl⟩⟩
      obtain ⟨w, hw, h1⟩ := List.mem_map.mp h
      obtain ⟨t2, ht2, rfl, _⟩ := ((C29_exact hf ws ha).2.2 w).mp hw
      obtain rfl := List.inj_on_of_nodup_map hd.tasks ht2 ht h1
      exact hw
    have e2 : t.name ∈ wu.map (·.symbol) ↔ ⟨t'.name, t'.pos⟩ ∈ wu := by
      refine ⟨fun h => ?_, fun h => List.mem_map.mpr ⟨_, h, he⟩⟩
      obtain ⟨w, hw, h1⟩ := List.mem_map.mp h
      obtain ⟨t2, ht2, rfl, _⟩ := ((C29_exact hk wu hr).2.2 w).mp hw
      obtain rfl := List.inj_on_of_nodup_map hdu.tasks ht2 ht' (h1.trans he.symm)
      exact hw
    rw [e1, e2, (C30_clash_partial hf ws ha).2.2 hud t ht, (C30_clash_partial hk wu hr).2.2 hu t' ht', he, hp.actionName hx,
      hp.reachesAction hx, hp.erasable hx]
  · intro md mu hm hmu
    have hac : ∃ ws, Returns ord f none (.ok ws) := (C23_acceptance hf).mpr hd
    have hau : ∃ ws, Returns ordu k none (.ok ws) := (C23_acceptance hk).mpr hdu
    have h1 := fun x => (C31_bounds_partial hf hac md hm).2.2 hud x
    have h2 := fun x => (C31_bounds_partial hk hau mu hmu).2.2 hu x
    refine ⟨fun t ht => ?_, hp.covered.rank (fun m hm => (hp.ambiguous (hd.method_task hm)).mp) (fun x hx => ?_) (C49_exact hf hm).1
      (C49_exact hk hmu).1⟩
    · rw [h1, h2, hp.erasable (.inl ⟨t, ht, rfl⟩)]
    · rw [h1] at hx
      rw [h2]
      exact hp.covered.erasable (fun m hm => hp.action _ (hd.method_task hm)) hx

/-! ### Two parts -/

omit [Env] in
theorem merged_task (h : Merged (rnDomain id d) (rnDomain id e) (rnDomain id u)) {x : Name} (hx : x ∈ u.tasks.map (·.name)) :
    x ∈ d.tasks.map (·.name) ∨ x ∈ e.tasks.map (·.name) := by
  rw [← taskNames_rn, List.mem_map] at hx
  rw [← taskNames_rn d, ← taskNames_rn e]
  obtain ⟨t, ht, rfl⟩ := hx
  exact (h.tasks t ht).imp List.mem_map_of_mem List.mem_map_of_mem

/-- C86: a domain that consists of two accepted parts is recursive exactly if one of them is. -/
theorem C86_recursive (hf : Parses f (.domain d)) (hg : Parses g (.domain e)) (hk : Parses k (.domain u))
    (h : Merged (rnDomain id d) (rnDomain id e) (rnDomain id u)) (ha : ∃ ws, Returns ord f none (.ok ws))
    (hb : ∃ ws, Returns ord' g none (.ok ws)) (hc : ∃ ws, Returns ordu k none (.ok ws)) (hm : Metadata ord f md)
    (hn : Metadata ord' g me) (hu : Metadata ordu k mu) :
    mu.recursion = .nonRecursive ↔ md.recursion = .nonRecursive ∧ me.recursion = .nonRecursive := by
  have hd := (C23_acceptance hf).mp ha
  have he := (C23_acceptance hg).mp hb
  have hku := (C23_acceptance hk).mp hc
  have p1 := portion h.left hd hku
  have p2 := portion h.right he hku
  rw [C34_non_recursive hf hm, C34_non_recursive hg hn, C34_non_recursive hk hu]
  constructor
  · exact fun h1 => ⟨fun ⟨x, hx⟩ => h1 ⟨x, p1.covered.trans hx⟩, fun ⟨x, hx⟩ => h1 ⟨x, p2.covered.trans hx⟩⟩
  · rintro ⟨h1, h2⟩ ⟨x, hx⟩
    obtain ⟨y, ⟨m, hmm, rfl, _⟩, _⟩ := Relation.TransGen.head'_iff.mp hx
    rcases merged_task h (hku.method_task hmm) with h3 | h3
    · exact h1 ⟨_, p1.trans (declared_iff.mpr (.inl h3)) hx⟩
    · exact h2 ⟨_, p2.trans (declared_iff.mpr (.inl h3)) hx⟩

omit [Env] in
theorem reported_declared (hd : DomainOk d) {x : Name} (h : Suspected d x) : Declared d x := by
  cases h with
  | mk _ hm _ _ => exact declared_iff.mpr (.inl (hd.method_task hm))

theorem warned_task (hf : Parses f (.domain d)) {ws : List Warning} (h : Returns ord f prob (.ok ws)) {x : Name}
    (hx : x ∈ ws.map (·.symbol)) : ∃ t ∈ d.tasks, t.name = x := by
  obtain ⟨w, hw, rfl⟩ := List.mem_map.mp hx
  obtain ⟨t, ht, rfl, _⟩ := ((C29_exact hf ws h).2.2 w).mp hw
  exact ⟨t, ht, rfl⟩

/-- C86: if the tasks of both parts are reported to be nullable alike, the class of the whole is the higher one of the classes of the
parts. -/
theorem C86_class (hf : Parses f (.domain d)) (hg : Parses g (.domain e)) (hk : Parses k (.domain u))
    (h : Merged (rnDomain id d) (rnDomain id e) (rnDomain id u)) (ha : ∃ ws, Returns ord f none (.ok ws))
    (hb : ∃ ws, Returns ord' g none (.ok ws)) (hc : ∃ ws, Returns ordu k none (.ok ws)) (hm : Metadata ord f md)
    (hn : Metadata ord' g me) (hu : Metadata ordu k mu) (hnd : ∀ x, Declared d x → (x ∈ mu.nullables ↔ x ∈ md.nullables))
    (hne : ∀ x, Declared e x → (x ∈ mu.nullables ↔ x ∈ me.nullables)) :
    mu.recursion.cls.rank = max md.recursion.cls.rank me.recursion.cls.rank := by
  have hd := (C23_acceptance hf).mp ha
  have he := (C23_acceptance hg).mp hb
  have hku := (C23_acceptance hk).mp hc
  have p1 := portion h.left hd hku
  have p2 := portion h.right he hku
  have c1 := (C49_exact hf hm).1
  have c2 := (C49_exact hg hn).1
  have c3 := (C49_exact hk hu).1
  apply Nat.le_antisymm
  · by_cases h0 : mu.recursion.cls = .none
    · rw [h0]; exact Nat.zero_le _
    · obtain ⟨c, hcy, hs⟩ := classBy_shows c3 h0
      obtain ⟨m, c, rfl⟩ := List.exists_cons_of_ne_nil hcy.ne
      rcases merged_task h (hku.method_task (hcy.mem m (by simp))) with h3 | h3
      · obtain ⟨c', h4, h5⟩ := p1.shows hnd hcy (declared_iff.mpr (.inl h3)) hs
        exact le_max_of_le_left (showsBy_rank c1 h4 h5)
      · obtain ⟨c', h4, h5⟩ := p2.shows hne hcy (declared_iff.mpr (.inl h3)) hs
        exact le_max_of_le_right (showsBy_rank c2 h4 h5)
  · have n1 : ∀ x ∈ md.nullables, Declared d x := fun x hx => reported_declared hd ((C31_bounds_partial hf ha md hm).2.1 x hx)
    have n2 : ∀ x ∈ me.nullables, Declared e x := fun x hx => reported_declared he ((C31_bounds_partial hg hb me hn).2.1 x hx)
    exact max_le
      (p1.covered.rank (fun m hm => (p1.ambiguous (hd.method_task hm)).mp) (fun x hx => (hnd x (n1 x hx)).mpr hx) c1 c3)
      (p2.covered.rank (fun m hm => (p2.ambiguous (he.method_task hm)).mp) (fun x hx => (hne x (n2 x hx)).mpr hx) c2 c3)

/-- C86: if both parts are uniform, a task is reported to be nullable exactly if it is in one of the parts, the class of the whole is
the higher one of the classes of the parts, and a task is warned about exactly if it is in one of the parts. -/
theorem C86_uniform (hf : Parses f (.domain d)) (hg : Parses g (.domain e)) (hk : Parses k (.domain u))
    (h : Merged (rnDomain id d) (rnDomain id e) (rnDomain id u)) (hud : Uniform d) (hue : Uniform e)
    (ws we wu : List Warning) (ha : Returns ord f none (.ok ws)) (hb : Returns ord' g none (.ok we))
    (hc : Returns ordu k none (.ok wu)) :
    (∀ x, x ∈ wu.map (·.symbol) ↔ x ∈ ws.map (·.symbol) ∨ x ∈ we.map (·.symbol)) ∧
    ∀ md me mu, Metadata ord f md → Metadata ord' g me → Metadata ordu k mu →
      (∀ x, x ∈ mu.nullables ↔ x ∈ md.nullables ∨ x ∈ me.nullables) ∧
      mu.recursion.cls.rank = max md.recursion.cls.rank me.recursion.cls.rank := by
  have hd := (C23_acceptance hf).mp ⟨_, ha⟩
  have he := (C23_acceptance hg).mp ⟨_, hb⟩
  have hku := (C23_acceptance hk).mp ⟨_, hc⟩
  have p1 := portion h.left hd hku
  have p2 := portion h.right he hku
  have hu : Uniform u := by
    intro m hm hs
    rcases merged_task h (hku.method_task hm) with h3 | h3
    · exact p1.uniform_at hud hm (declared_iff.mpr (.inl h3)) hs
    · exact p2.uniform_at hue hm (declared_iff.mpr (.inl h3)) hs
  obtain ⟨w1, n1⟩ := C86_part hf hk h.left ws wu ha hc hu
  obtain ⟨w2, n2⟩ := C86_part hg hk h.right we wu hb hc hu
  constructor
  · intro x
    constructor
    · intro hx
      obtain ⟨t, ht, rfl⟩ := warned_task hk hc hx
      rcases merged_task h (List.mem_map_of_mem ht) with h3 | h3
      · obtain ⟨t', ht', h4⟩ := List.mem_map.mp h3
        rw [← h4] at hx ⊢
        exact .inl ((w1 t' ht').mp hx)
      · obtain ⟨t', ht', h4⟩ := List.mem_map.mp h3
        rw [← h4] at hx ⊢
        exact .inr ((w2 t' ht').mp hx)
    · rintro (hx | hx)
      · obtain ⟨t, ht, rfl⟩ := warned_task hf ha hx
        exact (w1 t ht).mpr hx
      · obtain ⟨t, ht, rfl⟩ := warned_task hg hb hx
        exact (w2 t ht).mpr hx
  · intro md me mu hm hn hmu
    have e1 := fun x => (C31_bounds_partial hf ⟨_, ha⟩ md hm).2.2 hud x
    have e2 := fun x => (C31_bounds_partial hg ⟨_, hb⟩ me hn).2.2 hue x
    have e3 := fun x => (C31_bounds_partial hk ⟨_, hc⟩ mu hmu).2.2 hu x
    refine ⟨fun x => ?_, C86_class hf hg hk h ⟨_, ha⟩ ⟨_, hb⟩ ⟨_, hc⟩ hm hn hmu
      (fun x hx => by rw [e1, e3, p1.erasable hx]) fun x hx => by rw [e2, e3, p2.erasable hx]⟩
    rw [e1, e2, e3]
    constructor
    · intro hx
      obtain ⟨m, hmm, rfl⟩ : ∃ m ∈ u.methods, m.task.name = x := by cases hx with | mk h1 _ _ => exact ⟨_, h1, rfl⟩
      rcases merged_task h (hku.method_task hmm) with h3 | h3
      · exact .inl ((p1.erasable (declared_iff.mpr (.inl h3))).mp hx)
      · exact .inr ((p2.erasable (declared_iff.mpr (.inl h3))).mp hx)
    · rintro (hx | hx)
      · exact p1.covered.erasable (fun m hm => p1.action _ (hd.method_task hm)) hx
      · exact p2.covered.erasable (fun m hm => p2.action _ (he.method_task hm)) hx

/-! ### Instances -/

/-- A recursive part with a task that can never be executed. -/
def partLoop : Bytes := b!"(define (domain d) (:task t :parameters ()) (:task dead :parameters ()) (:method m0 :parameters () :task (t) :ordered-subtasks (and (go) (t))) (:method m1 :parameters () :task (t) :ordered-subtasks (go)) (:action go :parameters ()))\n"

/-- Another part with the same action. -/
def partEmpty : Bytes := b!"(define (domain d) (:task s :parameters ()) (:task r :parameters ()) (:method k0 :parameters () :task (s) :ordered-subtasks ()) (:method k1 :parameters () :task (r) :ordered-subtasks (and (go) (go))) (:action go :parameters ()))\n"

/-- The whole. -/
def partsBoth : Bytes := b!"(define (domain d) (:task t :parameters ()) (:task dead :parameters ()) (:task s :parameters ()) (:task r :parameters ()) (:method m0 :parameters () :task (t) :ordered-subtasks (and (go) (t))) (:method m1 :parameters () :task (t) :ordered-subtasks (go)) (:method k0 :parameters () :task (s) :ordered-subtasks ()) (:method k1 :parameters () :task (r) :ordered-subtasks (and (go) (go))) (:action go :parameters ()))\n"

def partLoopTree : DomainAST :=
  seqTree [b!"t", b!"dead"] [(b!"m0", b!"t", seqTotal [b!"go", b!"t"]), (b!"m1", b!"t", seqTotal [b!"go"])] [b!"go"]

def partEmptyTree : DomainAST :=
  seqTree [b!"s", b!"r"] [(b!"k0", b!"s", seqTotal []), (b!"k1", b!"r", seqTotal [b!"go", b!"go"])] [b!"go"]

def partsBothTree : DomainAST :=
  seqTree [b!"t", b!"dead", b!"s", b!"r"] [(b!"m0", b!"t", seqTotal [b!"go", b!"t"]), (b!"m1", b!"t", seqTotal [b!"go"]),
    (b!"k0", b!"s", seqTotal []), (b!"k1", b!"r", seqTotal [b!"go", b!"go"])] [b!"go"]

/-- Only `w` and `z` are nullable. -/
def partStops : Bytes := b!"(define (domain d) (:task t :parameters ()) (:task x :parameters ()) (:task y :parameters ()) (:task z :parameters ()) (:task w :parameters ()) (:task q :parameters ()) (:method m0 :parameters () :task (t) :ordered-subtasks (x)) (:method m1 :parameters () :task (x) :ordered-subtasks (and (y) (q))) (:method m2 :parameters () :task (y) :ordered-subtasks (and (z) (q))) (:method m3 :parameters () :task (z) :ordered-subtasks (w)) (:method m4 :parameters () :task (w) :ordered-subtasks ()))\n"

/-- A part with other tasks that are nullable. -/
def partLasts : Bytes := b!"(define (domain d) (:task w0 :parameters ()) (:task w1 :parameters ()) (:task v0 :parameters ()) (:task v1 :parameters ()) (:method k0 :parameters () :task (v1) :ordered-subtasks (v0)) (:method k1 :parameters () :task (v0) :ordered-subtasks (and (w0) (w1))) (:method k2 :parameters () :task (w0) :ordered-subtasks ()) (:method k3 :parameters () :task (w1) :ordered-subtasks ()))\n"

def partsStop : Bytes := b!"(define (domain d) (:task t :parameters ()) (:task x :parameters ()) (:task y :parameters ()) (:task z :parameters ()) (:task w :parameters ()) (:task q :parameters ()) (:task w0 :parameters ()) (:task w1 :parameters ()) (:task v0 :parameters ()) (:task v1 :parameters ()) (:method m0 :parameters () :task (t) :ordered-subtasks (x)) (:method m1 :parameters () :task (x) :ordered-subtasks (and (y) (q))) (:method m2 :parameters () :task (y) :ordered-subtasks (and (z) (q))) (:method m3 :parameters () :task (z) :ordered-subtasks (w)) (:method m4 :parameters () :task (w) :ordered-subtasks ()) (:method k0 :parameters () :task (v1) :ordered-subtasks (v0)) (:method k1 :parameters () :task (v0) :ordered-subtasks (and (w0) (w1))) (:method k2 :parameters () :task (w0) :ordered-subtasks ()) (:method k3 :parameters () :task (w1) :ordered-subtasks ()))\n"

def stopsTasks : List Name := [b!"t", b!"x", b!"y", b!"z", b!"w", b!"q"]

def stopsMethods : List (Name × Name × HTN) :=
  [(b!"m0", b!"t", seqTotal [b!"x"]), (b!"m1", b!"x", seqTotal [b!"y", b!"q"]), (b!"m2", b!"y", seqTotal [b!"z", b!"q"]),
    (b!"m3", b!"z", seqTotal [b!"w"]), (b!"m4", b!"w", seqTotal [])]

def lastsTasks : List Name := [b!"w0", b!"w1", b!"v0", b!"v1"]

def lastsMethods : List (Name × Name × HTN) :=
  [(b!"k0", b!"v1", seqTotal [b!"v0"]), (b!"k1", b!"v0", seqTotal [b!"w0", b!"w1"]), (b!"k2", b!"w0", seqTotal []),
    (b!"k3", b!"w1", seqTotal [])]

omit [Env] in
theorem partLoop_parses : @Parses Env.plain partLoop (.domain partLoopTree) := @parses_tree Env.plain _ 200 _ (by decide +kernel)

omit [Env] in
theorem partEmpty_parses : @Parses Env.plain partEmpty (.domain partEmptyTree) := @parses_tree Env.plain _ 200 _ (by decide +kernel)

omit [Env] in
theorem partsBoth_parses : @Parses Env.plain partsBoth (.domain partsBothTree) := @parses_tree Env.plain _ 200 _ (by decide +kernel)

omit [Env] in
theorem partsBoth_merged : Merged (rnDomain id partLoopTree) (rnDomain id partEmptyTree) (rnDomain id partsBothTree) := by
  constructor
  · exact ⟨⟨by decide +kernel, by decide +kernel, by decide +kernel, by decide +kernel, by decide +kernel, by decide +kernel,
      by decide +kernel⟩, by decide +kernel, by decide +kernel⟩
  · exact ⟨⟨by decide +kernel, by decide +kernel, by decide +kernel, by decide +kernel, by decide +kernel, by decide +kernel,
      by decide +kernel⟩, by decide +kernel, by decide +kernel⟩
  all_goals decide +kernel

omit [Env] in
theorem partLoop_uniform : Uniform partLoopTree := by
  have h : ∀ x, ¬ Erasable partLoopTree x := by
    have h1 : ∀ m ∈ partLoopTree.methods, ¬ ∀ s ∈ m.tn.subtasks, ¬ ∃ a ∈ partLoopTree.actions, a.name = s.task.name := by
      decide +kernel
    intro x hx
    cases hx with
    | mk hm h2 _ => exact h1 _ hm h2
  exact fun m _ ⟨s, _, hs⟩ => absurd hs (h _)

omit [Env] in
theorem partEmpty_uniform : Uniform partEmptyTree := by
  have h : ∀ m ∈ partEmptyTree.methods, ∀ s ∈ m.tn.subtasks, ∀ k ∈ partEmptyTree.methods, s.task.name ≠ k.task.name := by
    decide +kernel
  rintro m hm ⟨s, hs, h2⟩
  obtain ⟨k, hk, h3⟩ : ∃ k ∈ partEmptyTree.methods, s.task.name = k.task.name := by
    generalize s.task.name = x at h2
    cases h2 with
    | mk h _ _ => exact ⟨_, h, rfl⟩
  exact absurd h3 (h m hm s hs k hk)

/-- Two accepted parts and the whole: the hypotheses of all theorems hold, and all results are not trivial. -/
example : Merged (rnDomain id partLoopTree) (rnDomain id partEmptyTree) (rnDomain id partsBothTree) ∧
    ConstantsOnce (rnDomain id partsBothTree) ∧ Uniform partLoopTree ∧ Uniform partEmptyTree ∧
    @Returns Env.plain HashOrd.id partLoop none (.ok [⟨b!"dead", 1⟩]) ∧ @Returns Env.plain HashOrd.rev partEmpty none (.ok []) ∧
    @Returns Env.plain HashOrd.id partsBoth none (.ok [⟨b!"dead", 1⟩]) ∧
    @Metadata Env.plain HashOrd.id partLoop ⟨.recursive [(b!"t", b!"m0"), (b!"t", b!"m0")], [], [], 1, 2, 2⟩ ∧
    @Metadata Env.plain HashOrd.rev partEmpty ⟨.nonRecursive, [b!"s"], [], 1, 2, 2⟩ ∧
    @Metadata Env.plain HashOrd.id partsBoth ⟨.recursive [(b!"t", b!"m0"), (b!"t", b!"m0")], [b!"s"], [], 1, 4, 4⟩ :=
  ⟨partsBoth_merged, by decide +kernel, partLoop_uniform, partEmpty_uniform,
    @returns_run Env.plain _ _ _ 200 _ (by decide +kernel) (by simp), @returns_run Env.plain _ _ _ 200 _ (by decide +kernel) (by simp),
    @returns_run Env.plain _ _ _ 200 _ (by decide +kernel) (by simp), @metadata_run Env.plain _ _ 200 _ (by decide +kernel),
    @metadata_run Env.plain _ _ 200 _ (by decide +kernel), @metadata_run Env.plain _ _ 200 _ (by decide +kernel)⟩

omit [Env] in
theorem partStops_parses : @Parses Env.plain partStops (.domain (seqTree stopsTasks stopsMethods [])) :=
  @parses_tree Env.plain _ 200 _ (by decide +kernel)

omit [Env] in
/-- Whatever the iteration orders are, `t` is not computed to be nullable. -/
theorem partStops_nullables {ord : HashOrd} {ns : List Name} (hd : DomainOk (seqTree stopsTasks stopsMethods []))
    (hn : NullablesAre ord (seqTree stopsTasks stopsMethods []) ns) : b!"t" ∉ ns := by
  have key : ∀ l : List Nat, (∀ m mm, (seqTree stopsTasks stopsMethods []).methods[m]? = some mm → mm.tn.subtasks.length = 2 →
      (m ∈ l ↔ ord.order [1, m] 2 = [1, 0])) → ∀ ns', ((TDG.new (HashOrd.swapped l) (seqTree stopsTasks stopsMethods [])).bind
        fun g => g.nullables 200) = .ok ns' → b!"t" ∉ ns' → b!"t" ∉ ns := by
    intro l hl ns' h h1 h2
    refine h1 ((nullables_swapped hd (by decide +kernel) ord hn l hl ⟨200, fun n hle => ?_⟩ _).mpr h2)
    obtain ⟨g, hg, h3⟩ := R.bind_ok_iff.mp h
    rw [hg, R.bind_ok, (g.nullables_le hle).eq (by rw [h3]; simp), h3]
  have pos : ∀ m mm, (seqTree stopsTasks stopsMethods []).methods[m]? = some mm → mm.tn.subtasks.length = 2 → m = 1 ∨ m = 2 := by
    intro m mm hm h2
    match m, hm with
    | 0, hm => cases hm; cases h2
    | 1, _ => exact .inl rfl
    | 2, _ => exact .inr rfl
    | 3, hm => cases hm; cases h2
    | 4, hm => cases hm; cases h2
    | m + 5, hm => cases hm
  by_cases h1 : ord.order [1, 1] 2 = [1, 0] <;> by_cases h2 : ord.order [1, 2] 2 = [1, 0]
  · exact key [1, 2] (fun m mm hm hl => by rcases pos m mm hm hl with rfl | rfl <;> simp [h1, h2]) [b!"z", b!"w"]
      (by decide +kernel) (by decide)
  · exact key [1] (fun m mm hm hl => by rcases pos m mm hm hl with rfl | rfl <;> simp [h1, h2]) [b!"z", b!"w"]
      (by decide +kernel) (by decide)
  · exact key [2] (fun m mm hm hl => by rcases pos m mm hm hl with rfl | rfl <;> simp [h1, h2]) [b!"z", b!"w"]
      (by decide +kernel) (by decide)
  · exact key [] (fun m mm hm hl => by rcases pos m mm hm hl with rfl | rfl <;> simp [h1, h2]) [b!"z", b!"w"]
      (by decide +kernel) (by decide)

omit [Env] in
/-- C86 without uniformity: the tasks of one part can be reported to be nullable and not be warned about because of the tasks of the
other part, which has nothing in common with it. -/
theorem C86_refuted : ∃ d e u : DomainAST, @Parses Env.plain partStops (.domain d) ∧ @Parses Env.plain partLasts (.domain e) ∧
    @Parses Env.plain partsStop (.domain u) ∧ Merged (rnDomain id d) (rnDomain id e) (rnDomain id u) ∧
    (∃ ws, @Returns Env.plain HashOrd.id partStops none (.ok ws)) ∧ (∃ ws, @Returns Env.plain HashOrd.id partLasts none (.ok ws)) ∧
    (∀ ord ws, @Returns Env.plain ord partStops none (.ok ws) → ⟨b!"t", 1⟩ ∈ ws) ∧
    (∀ ord md, @Metadata Env.plain ord partStops md → b!"t" ∉ md.nullables) ∧
    (∃ wu, @Returns Env.plain HashOrd.id partsStop none (.ok wu) ∧ b!"t" ∉ wu.map (·.symbol)) ∧
    ∃ mu, @Metadata Env.plain HashOrd.id partsStop mu ∧ b!"t" ∈ mu.nullables := by
  have hr := @returns_run Env.plain HashOrd.id partStops none 200 (.ok [⟨b!"t", 1⟩, ⟨b!"x", 1⟩, ⟨b!"y", 1⟩, ⟨b!"q", 1⟩])
    (by decide +kernel) (by simp)
  have hd := accepts_iff.mp ⟨_, @returns_accepts Env.plain _ _ _ _ partStops_parses _ hr⟩
  refine ⟨_, _, seqTree (stopsTasks ++ lastsTasks) (stopsMethods ++ lastsMethods) [], partStops_parses,
    @parses_tree Env.plain _ 200 (seqTree lastsTasks lastsMethods []) (by decide +kernel), @parses_tree Env.plain _ 200 _ (by decide +kernel),
    ?_, ⟨_, hr⟩, ⟨[], @returns_run Env.plain _ _ _ 200 _ (by decide +kernel) (by simp)⟩, fun ord ws h => ?_, fun ord md h h1 => ?_,
    ⟨[⟨b!"x", 1⟩, ⟨b!"y", 1⟩, ⟨b!"q", 1⟩], @returns_run Env.plain _ _ _ 200 _ (by decide +kernel) (by simp), by decide⟩,
    ⟨⟨.nonRecursive, [b!"t", b!"v1", b!"z", b!"v0", b!"w", b!"w0", b!"w1"], [], 0, 10, 9⟩,
      @metadata_run Env.plain _ _ 200 _ (by decide +kernel), by decide⟩⟩
  · constructor
    · exact ⟨⟨by decide +kernel, by decide +kernel, by decide +kernel, by decide +kernel, by decide +kernel, by decide +kernel,
        by decide +kernel⟩, by decide +kernel, by decide +kernel⟩
    · exact ⟨⟨by decide +kernel, by decide +kernel, by decide +kernel, by decide +kernel, by decide +kernel, by decide +kernel,
        by decide +kernel⟩, by decide +kernel, by decide +kernel⟩
    all_goals decide +kernel
  · refine ((@C29_exact Env.plain _ _ _ _ partStops_parses ws h).2.2 _).mpr ⟨⟨b!"t", 1, []⟩, by decide +kernel, rfl,
      .inr (fun h2 => ?_), fun ns hns => partStops_nullables hd hns⟩
    obtain ⟨x, hx, _⟩ := h2
    cases hx
  · obtain ⟨ns, rt, h2, rfl, _⟩ := @Metadata.parts Env.plain _ _ _ _ h partStops_parses
    exact partStops_nullables hd h2 (mem_arrange.mp h1)

end Verif
