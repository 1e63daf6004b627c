import Verif.Proofs.RenameGraph
import Verif.Proofs.Printing
import Verif.Spec.Skeleton

/-! The decomposition graph, the warnings and the metadata only depend on the skeleton of the domain. -/

namespace Verif

open Spec

variable {ord : HashOrd} {g : TDG} {d : DomainAST}

/-- The graph without arguments and constraints. -/
def TDG.bare (g : TDG) : TDG := { g with methods := g.methods.map (Prod.map id orderOnly) }

theorem tdgTasks_skeleton : tdgTasks (skeleton d) = tdgTasks d := by
  simp [tdgTasks, skeleton, Function.comp_def]

theorem methodTasks_only (ts : List (Name × Bool)) (ms : List Method) : methodTasks ts (ms.map methodOnly) = methodTasks ts ms := by
  induction ms with
  | nil => rfl
  | cons m ms ih =>
    have : (methodOnly m).task.name = m.task.name := rfl
    simp only [List.map_cons, methodTasks, this, ih]

theorem subtaskIndices_only (b : Bool) (ts : List (Name × Bool)) (ss : List Subtask) :
    subtaskIndices ts (ss.map (subtaskOnly b)) = subtaskIndices ts ss := by
  induction ss with
  | nil => rfl
  | cons s ss ih =>
    have : (subtaskOnly b s).task.name = s.task.name := rfl
    simp only [List.map_cons, subtaskIndices, this, ih]

theorem orderOnly_subtasks (h : HTN) : ∃ b, (orderOnly h).subtasks = h.subtasks.map (subtaskOnly b) := by
  unfold orderOnly
  split
  exacts [⟨_, rfl⟩, ⟨_, rfl⟩]

theorem methodSubtasks_only (ts : List (Name × Bool)) (ms : List Method) :
    methodSubtasks ts (ms.map methodOnly) = methodSubtasks ts ms := by
  induction ms with
  | nil => rfl
  | cons m ms ih =>
    obtain ⟨b, hb⟩ := orderOnly_subtasks m.tn
    have : (methodOnly m).tn.subtasks = m.tn.subtasks.map (subtaskOnly b) := hb
    simp only [List.map_cons, methodSubtasks, this, subtaskIndices_only, ih]

theorem TDG.new_skeleton : TDG.new ord (skeleton d) = (TDG.new ord d).map TDG.bare := by
  have hm : (skeleton d).methods = d.methods.map methodOnly := rfl
  unfold TDG.new
  simp only [tdgTasks_skeleton, hm, methodTasks_only, methodSubtasks_only]
  cases methodTasks (tdgTasks d) d.methods with
  | ok owner =>
    cases methodSubtasks (tdgTasks d) d.methods with
    | ok subs =>
      simp only [R.map, R.bind_ok, TDG.bare, List.map_map]
      rfl
    | _ => rfl
  | _ => rfl

theorem TDG.nullLoop_bare (n : Nat) (s : NullState) : g.bare.nullLoop n s = g.nullLoop n s := by
  induction n generalizing s with
  | zero => rfl
  | succ n ih =>
    unfold TDG.nullLoop
    rw [ih]
    rfl

theorem TDG.nullables_bare (n : Nat) : g.bare.nullables n = g.nullables n := by
  unfold TDG.nullables
  rw [TDG.nullLoop_bare]
  rfl

theorem TDG.bfs_bare (n : Nat) (q v r : List Nat) : g.bare.bfs n q v r = g.bfs n q v r := by
  induction n generalizing q v r with
  | zero => cases q <;> rfl
  | succ n ih =>
    cases q with
    | nil => rfl
    | cons t q =>
      simp only [TDG.bfs, ih]
      rfl

theorem TDG.reachable_bare (n : Nat) (x : Name) : g.bare.reachable n x = g.reachable n x := by
  unfold TDG.reachable
  simp only [TDG.bfs_bare, TDG.nullables_bare]
  rfl

theorem TDG.method_bare (m : Nat) : g.bare.method m = ((g.method m).1, orderOnly (g.method m).2) := by
  simp only [TDG.method, TDG.bare, List.getElem?_map]
  cases g.methods[m]? <;> rfl

theorem subIndices_bare (b : Bool) (ss : List Subtask) : subIndices g.bare (ss.map (subtaskOnly b)) = subIndices g ss := by
  induction ss with
  | nil => rfl
  | cons s ss ih =>
    have : taskIndexFirst g.bare.tasks (subtaskOnly b s).task.name = taskIndexFirst g.tasks s.task.name := rfl
    simp only [List.map_cons, subIndices, this, ih]

theorem occurrences_only {h : HTN} {os : List (Name × Name)} (ho : h.orderings = .partial_ os) (x : Name) :
    occurrences (orderOnly h) x = occurrences h x := by
  simp only [occurrences, orderOnly, ho, List.filterMap_map]
  congr 1
  refine List.filterMap_congr fun s _ => ?_
  obtain ⟨i, t, l⟩ := s
  cases i <;> rfl

theorem idToTask_only {h : HTN} {os : List (Name × Name)} (ho : h.orderings = .partial_ os) (x : Name) :
    idToTask (orderOnly h) x = idToTask h x := by
  simp only [idToTask, orderOnly, ho, ← List.map_reverse, List.find?_map, Option.map_map]
  refine congrArg (Option.map _) (congrArg (List.find? · _) (funext fun s => ?_))
  obtain ⟨i, t, l⟩ := s
  cases i <;> rfl

theorem idIndices_bare {h : HTN} {os : List (Name × Name)} (ho : h.orderings = .partial_ os) (l : List Name) :
    idIndices g.bare (orderOnly h) l = idIndices g h l := by
  induction l with
  | nil => rfl
  | cons x l ih =>
    simp only [idIndices, idToTask_only ho, ih]
    rfl

theorem TDG.getPrefix_bare (fuel t m : Nat) : g.bare.getPrefix ord fuel t m = g.getPrefix ord fuel t m := by
  unfold TDG.getPrefix
  simp only [TDG.method_bare]
  have ht : g.bare.taskName t = g.taskName t := rfl
  generalize (g.method m).2 = h
  cases ho : h.orderings with
  | total =>
    have h1 : orderOnly h = ⟨h.subtasks.map (subtaskOnly false), none, .total, none⟩ := by simp [orderOnly, ho]
    simp only [h1, ht, List.findIdx?_map, ← List.map_take, subIndices_bare]
    rfl
  | partial_ os =>
    have h1 : (orderOnly h).orderings = .partial_ os := by simp [orderOnly, ho]
    have h2 : (orderOnly h).subtasks.length = h.subtasks.length := by simp [orderOnly, ho]
    simp only [h1, h2, ht, occurrences_only ho]

theorem TDG.getSuffix_bare (fuel t m : Nat) : g.bare.getSuffix ord fuel t m = g.getSuffix ord fuel t m := by
  unfold TDG.getSuffix
  simp only [TDG.method_bare]
  have ht : g.bare.taskName t = g.taskName t := rfl
  generalize (g.method m).2 = h
  cases ho : h.orderings with
  | total =>
    have h1 : orderOnly h = ⟨h.subtasks.map (subtaskOnly false), none, .total, none⟩ := by simp [orderOnly, ho]
    simp only [h1, ht, List.findIdx?_map, ← List.map_drop, subIndices_bare]
    rfl
  | partial_ os =>
    have h1 : (orderOnly h).orderings = .partial_ os := by simp [orderOnly, ho]
    have h2 : (orderOnly h).subtasks.length = h.subtasks.length := by simp [orderOnly, ho]
    simp only [h1, h2, ht, occurrences_only ho, idIndices_bare ho]

theorem TDG.cycleInfo_bare (fuel : Nat) (nulls : List Nat) (x : Nat) : ∀ c : List (Nat × Nat),
    g.bare.cycleInfo ord fuel nulls x c = g.cycleInfo ord fuel nulls x c
  | [] => rfl
  | [_] => rfl
  | (_, m) :: (t, m') :: rest => by
    simp only [TDG.cycleInfo, TDG.getPrefix_bare, TDG.getSuffix_bare, TDG.cycleInfo_bare fuel nulls x ((t, m') :: rest)]

theorem TDG.cycleNames_bare (c : List (Nat × Nat)) : g.bare.cycleNames c = g.cycleNames c := by
  simp only [TDG.cycleNames, TDG.method_bare]
  rfl

theorem TDG.expand_bare (fuel : Nat) (nulls : List Nat) (path : List (Nat × Nat)) (m : Nat) (xs : List Nat)
    (stack : List (List (Nat × Nat))) (rt : RecType) :
    g.bare.expand ord fuel nulls path m xs stack rt = g.expand ord fuel nulls path m xs stack rt := by
  induction xs generalizing stack rt with
  | nil => rfl
  | cons x xs ih =>
    unfold TDG.expand
    simp only [TDG.cycleInfo_bare, TDG.cycleNames_bare, ih]
    rfl

theorem TDG.recLoop_bare (fuel : Nat) (nulls : List Nat) (n : Nat) (stack : List (List (Nat × Nat))) (rt : RecType) :
    g.bare.recLoop ord fuel nulls n stack rt = g.recLoop ord fuel nulls n stack rt := by
  induction n generalizing stack rt with
  | zero => cases stack <;> rfl
  | succ n ih =>
    cases stack with
    | nil => rfl
    | cons path stack =>
      unfold TDG.recLoop
      simp only [TDG.expand_bare, ih]
      rfl

theorem nullIndices_bare (l : List Name) : nullIndices g.bare l = nullIndices g l := by
  induction l with
  | nil => rfl
  | cons x l ih => simp only [nullIndices, ih]; rfl

theorem TDG.recursionType_bare (fuel : Nat) (nulls : List Name) :
    g.bare.recursionType ord fuel nulls = g.recursionType ord fuel nulls := by
  unfold TDG.recursionType
  simp only [nullIndices_bare, TDG.recLoop_bare]
  rfl

theorem metadataOf_skeleton (fuel : Nat) : metadataOf ord fuel (skeleton d) = metadataOf ord fuel d := by
  unfold metadataOf
  rw [TDG.new_skeleton, R.map_bind]
  simp only [TDG.nullables_bare, TDG.recursionType_bare]
  simp [skeleton]

theorem collectWarnings_bare (n : Nat) (ts : List Task) :
    collectWarnings g.bare n (ts.map fun t => ⟨t.name, 0, []⟩) = (collectWarnings g n ts).map (List.map fun w => ⟨w.symbol, 0⟩) := by
  induction ts with
  | nil => rfl
  | cons t ts ih =>
    simp only [List.map_cons, collectWarnings, TDG.reachable_bare, ih, R.map_bind, R.bind_map]
    congr 1
    funext r
    congr 1
    funext ws
    simp only [R.map, R.bind_ok]
    split <;> rfl

theorem warningsOf_skeleton (n : Nat) :
    warningsOf ord n (skeleton d) = (warningsOf ord n d).map (List.map fun w => ⟨w.symbol, 0⟩) := by
  unfold warningsOf
  rw [TDG.new_skeleton, R.map_bind, R.bind_map]
  congr 1
  funext g
  rw [← collectWarnings_bare, ← arrange_map]
  rfl

/-! ### Lines -/

theorem nameOnly_rn (s : Symbol) : nameOnly (rnSymbol id s) = nameOnly s := rfl

theorem subtaskOnly_rn (b : Bool) (s : Subtask) : subtaskOnly b (rnSubtask id s) = subtaskOnly b s := by
  obtain ⟨i, t, l⟩ := s
  cases b <;> cases i <;> rfl

theorem orderOnly_rn (h : HTN) : orderOnly (rnHtn id h) = orderOnly h := by
  obtain ⟨ss, p, o, c⟩ := h
  cases o with
  | total => simp [orderOnly, rnHtn, rnOrdering, subtaskOnly_rn, Function.comp_def]
  | partial_ os => simp [orderOnly, rnHtn, rnOrdering, subtaskOnly_rn, Function.comp_def]

theorem skeleton_rn : skeleton (rnDomain id d) = skeleton d := by
  simp [skeleton, rnDomain, Function.comp_def, methodOnly, rnMethod, rnTask, rnAction, nameOnly_rn, orderOnly_rn]

theorem subtaskOnly_idem (b : Bool) (s : Subtask) : subtaskOnly b (subtaskOnly b s) = subtaskOnly b s := by
  obtain ⟨i, t, l⟩ := s
  cases b <;> cases i <;> rfl

theorem orderOnly_idem (h : HTN) : orderOnly (orderOnly h) = orderOnly h := by
  obtain ⟨ss, p, o, c⟩ := h
  cases o with
  | total => simp [orderOnly, subtaskOnly_idem, Function.comp_def]
  | partial_ os => simp [orderOnly, subtaskOnly_idem, Function.comp_def]

theorem skeleton_idem : skeleton (skeleton d) = skeleton d := by
  simp [skeleton, Function.comp_def, methodOnly, nameOnly, orderOnly_idem]

/-! ### Well-formedness -/

theorem callee_skeleton {x : Name} {ps : List Symbol} (h : Callee d x ps) : Callee (skeleton d) x [] := by
  cases h with
  | @action a ha hx =>
    exact .action (d := skeleton d) (a := ⟨a.name, 0, [], none, none⟩) (List.mem_map_of_mem ha) hx
  | @task t hn ht hx =>
    refine .task (d := skeleton d) (t := ⟨t.name, 0, []⟩) ?_ (List.mem_map_of_mem ht) hx
    intro a ha
    obtain ⟨b, hb, rfl⟩ := List.mem_map.mp ha
    exact hn b hb

theorem before_orderOnly (h : HTN) (a b : Name) : Before (orderOnly h) a b ↔ Before h a b := by
  unfold Before orderOnly
  split <;> simp_all

theorem methodOk_skeleton {m : Method} (h : MethodOk d m) : MethodOk (skeleton d) (methodOnly m) := by
  refine ⟨by simp [methodOnly], by simp [methodOnly], ?_, ?_, ?_⟩
  · obtain ⟨t, ht, hn, _⟩ := h.task
    exact ⟨⟨t.name, 0, []⟩, List.mem_map_of_mem ht, hn, .nil⟩
  · intro s hs
    obtain ⟨b, hb⟩ := orderOnly_subtasks m.tn
    have hs' : s ∈ m.tn.subtasks.map (subtaskOnly b) := hb ▸ hs
    obtain ⟨u, hu, rfl⟩ := List.mem_map.mp hs'
    obtain ⟨ps, h1, _⟩ := h.subtasks u hu
    exact ⟨[], callee_skeleton h1, .nil⟩
  · have : Before (methodOnly m).tn = Before m.tn := by
      funext a b
      exact propext (before_orderOnly _ _ _)
    rw [this]
    exact h.ordering

theorem domainOk_skeleton (h : DomainOk d) : DomainOk (skeleton d) := by
  have ht : typesOf (skeleton d) = [] := rfl
  refine ⟨by simp [skeleton], ?_, by simp [skeleton], by simp [skeleton], ?_, ?_, ?_, ?_, ?_, ?_⟩
  · rw [ht]
    intro x hx
    have h0 : ∀ {a b : Name}, Relation.TransGen (DirectSub []) a b → False := by
      intro a b hab
      induction hab with
      | single h => obtain ⟨_, h, _⟩ := h; cases h
      | tail _ h _ => obtain ⟨_, h, _⟩ := h; cases h
    exact h0 hx
  · simpa [skeleton, Function.comp_def] using h.tasks
  · intro t ht
    obtain ⟨u, _, rfl⟩ := List.mem_map.mp ht
    intro s hs
    cases hs
  · simpa [skeleton, Function.comp_def] using h.actionNames
  · intro a ha
    obtain ⟨b, _, rfl⟩ := List.mem_map.mp ha
    exact ⟨by simp, by simp, by simp⟩
  · simpa [skeleton, Function.comp_def, methodOnly, nameOnly] using h.methodNames
  · intro m hm
    obtain ⟨u, hu, rfl⟩ := List.mem_map.mp hm
    exact methodOk_skeleton (h.methods u hu)

/-! ### Text -/

theorem listShape_nil : ListShape [] := ⟨by simp, .nil⟩

theorem subtaskOnly_shape (b : Bool) (s : Subtask) : SubtaskShape (subtaskOnly b s) := by
  obtain ⟨i, t, l⟩ := s
  refine ⟨?_, ⟨rfl, rfl⟩, by simp [subtaskOnly]⟩
  intro j hj
  cases b <;> cases i <;> simp only [subtaskOnly, Bool.false_eq_true, if_false, if_true, Option.map_none, Option.map_some, reduceCtorEq,
    Option.some.injEq] at hj
  subst hj
  exact ⟨rfl, rfl⟩

theorem orderOnly_shape (h : HTN) : HtnShape (orderOnly h) := by
  constructor
  · intro s hs
    obtain ⟨b, hb⟩ := orderOnly_subtasks h
    rw [hb] at hs
    obtain ⟨u, _, rfl⟩ := List.mem_map.mp hs
    exact subtaskOnly_shape b u
  · unfold orderOnly
    split <;> simp
  · unfold orderOnly
    split
    · simp
    · simp

theorem skeleton_shape : DomainShape (skeleton d) := by
  refine ⟨by simp [skeleton], by simp [skeleton, typesOf], by simp [skeleton], by simp [skeleton, constantsOf], by simp [skeleton], ?_, ?_, ?_,
    by simp [skeleton]⟩
  · intro t ht
    obtain ⟨u, _, rfl⟩ := List.mem_map.mp ht
    exact listShape_nil
  · intro m hm
    obtain ⟨u, _, rfl⟩ := List.mem_map.mp hm
    exact ⟨⟨rfl, rfl⟩, ⟨rfl, rfl⟩, listShape_nil, listShape_nil, by simp [methodOnly], orderOnly_shape _⟩
  · intro a ha
    obtain ⟨u, _, rfl⟩ := List.mem_map.mp ha
    exact ⟨listShape_nil, by simp, by simp⟩

theorem orderOnly_constraints (h : HTN) : (orderOnly h).constraints = none := by
  unfold orderOnly
  split <;> rfl

theorem keptMethods_only : ∀ ms : List Method, keptMethods (ms.map methodOnly) = ms.map methodOnly
  | [] => rfl
  | m :: ms => by
    have : ¬ ConstrainedTotal (methodOnly m).tn := fun h => h.2 (orderOnly_constraints _)
    rw [List.map_cons, keptMethods, if_neg this, keptMethods_only ms]

theorem readDomain_skeleton : readDomain (skeleton d) = skeleton d := by
  rw [readDomain, show (skeleton d).methods = d.methods.map methodOnly from rfl, keptMethods_only]
  rfl

end Verif
