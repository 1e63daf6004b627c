import Verif.Proofs.Verify

/-! Error reports mention names that occur in the syntax tree, with the recorded lines. -/

namespace Verif

open Spec

/-- The names and lines mentioned by a report. -/
def mentions : SemErr → List (Name × Nat)
  | .dupObject e | .dupPredicate e | .dupAction e | .dupTask e | .dupMethod e | .dupParameter e =>
    [(e.symbol, e.first), (e.symbol, e.second)]
  | .undefPredicate e | .undefObject e | .undefParameter e | .undefTask e | .undefSubtask e | .undefType e =>
    [(e.symbol, e.pos)]
  | .predArity e | .taskArity e => [(e.symbol, e.pos)]
  | .predArgType e | .taskArgType e => [(e.var, e.pos)]
  | _ => []

variable {d : DomainAST} {p : ProblemAST}

theorem Spec.Occurs.names {a : Predicate} {f : Formula} (h : Occurs a f) : ∀ n ∈ predNames a, n ∈ formulaNames f := by
  intro n hn
  induction h with
  | atom => simpa [formulaNames] using hn
  | not _ ih => simpa [formulaNames] using ih
  | and h _ ih => simp only [formulaNames, List.mem_flatMap]; exact ⟨_, h, ih⟩
  | or h _ ih => simp only [formulaNames, List.mem_flatMap]; exact ⟨_, h, ih⟩
  | xor h _ ih => simp only [formulaNames, List.mem_flatMap]; exact ⟨_, h, ih⟩
  | left h _ ih => simp only [formulaNames, List.mem_append, List.mem_flatMap]; exact .inl ⟨_, h, ih⟩
  | right h _ ih => simp only [formulaNames, List.mem_append, List.mem_flatMap]; exact .inr ⟨_, h, ih⟩
  | weighted _ ih => simpa [formulaNames] using ih
  | forall_ _ ih => simp only [formulaNames, List.mem_append]; exact .inr ih
  | exists_ _ ih => simp only [formulaNames, List.mem_append]; exact .inr ih

theorem actionNames_mem {a : Action} (h : a ∈ d.actions) : ∀ n ∈ actionNames a, n ∈ domainNames d := by
  intro n hn
  unfold domainNames
  simp only [List.mem_append, List.mem_flatMap]
  exact .inl (.inr ⟨a, h, hn⟩)

theorem methodNames_mem {m : Method} (h : m ∈ d.methods) : ∀ n ∈ methodNames m, n ∈ domainNames d := by
  intro n hn
  unfold domainNames
  simp only [List.mem_append, List.mem_flatMap]
  exact .inl (.inl (.inr ⟨m, h, hn⟩))

theorem taskNames_mem {t : Task} (h : t ∈ d.tasks) : ∀ n ∈ taskNames t, n ∈ domainNames d := by
  intro n hn
  unfold domainNames
  simp only [List.mem_append, List.mem_flatMap]
  exact .inl (.inl (.inl (.inr ⟨t, h, hn⟩)))

theorem predNames_mem {t : Predicate} (h : t ∈ d.predicates) : ∀ n ∈ predNames t, n ∈ domainNames d := by
  intro n hn
  unfold domainNames
  simp only [List.mem_append, List.mem_flatMap]
  exact .inl (.inl (.inl (.inl (.inr ⟨t, h, hn⟩))))

theorem Spec.FormulaOf.names {l : List Symbol} {f : Formula} (h : FormulaOf d l f) :
    ∀ n ∈ formulaNames f, n ∈ domainNames d := by
  intro n hn
  cases h with
  | pre ha hf => exact actionNames_mem ha n (by simp [actionNames, hf, optNames, hn])
  | eff ha hf => exact actionNames_mem ha n (by simp [actionNames, hf, optNames, hn])
  | method ha hf => exact methodNames_mem ha n (by simp [methodNames, hf, optNames, hn])

theorem Spec.ParamsOf.names {l : List Symbol} (h : ParamsOf d l) : ∀ s ∈ l, ∀ n ∈ symbolNames s, n ∈ domainNames d := by
  intro s hs n hn
  have hx : n ∈ l.flatMap symbolNames := List.mem_flatMap.2 ⟨s, hs, hn⟩
  cases h with
  | predicate h => exact predNames_mem h n (by simp only [predNames, List.mem_cons]; exact .inr hx)
  | task h => exact taskNames_mem h n (by simp only [taskNames, List.mem_cons]; exact .inr hx)
  | action h =>
    exact actionNames_mem h n (by simp only [actionNames, List.mem_cons, List.mem_append]; exact .inr (.inl (.inl hx)))
  | method h =>
    exact methodNames_mem h n (by simp only [methodNames, List.mem_append]; exact .inl (.inl (.inr hx)))

theorem symbolNames_self (s : Symbol) : (s.name, s.pos) ∈ symbolNames s := by simp [symbolNames]

theorem symbolNames_ty {s : Symbol} {t : Name} {l : Nat} (h : s.ty = some t) (h' : s.tyPos = some l) :
    (t, l) ∈ symbolNames s := by simp [symbolNames, h, h']

theorem predNames_self (a : Predicate) : (a.name, a.pos) ∈ predNames a := by simp [predNames]

theorem predNames_var {a : Predicate} {v : Symbol} (h : v ∈ a.vars) : (v.name, v.pos) ∈ predNames a := by
  simp only [predNames, List.mem_cons, List.mem_flatMap]
  exact .inr ⟨v, h, symbolNames_self v⟩

theorem Spec.CallOf.names {m : Method} {x : Symbol} {terms : List Symbol} (h : CallOf d m x terms) :
    (x.name, x.pos) ∈ domainNames d ∧ ∀ v ∈ terms, (v.name, v.pos) ∈ domainNames d := by
  cases h with
  | task h =>
    refine ⟨methodNames_mem h _ ?_, fun v hv => methodNames_mem h _ ?_⟩
    · simp only [methodNames, List.mem_append]
      exact .inl (.inl (.inl (.inl (.inr (symbolNames_self _)))))
    · simp only [methodNames, List.mem_append, List.mem_flatMap]
      exact .inl (.inl (.inl (.inr ⟨v, hv, symbolNames_self _⟩)))
  | @subtask s h hs =>
    have key : ∀ n ∈ subtaskNames s, n ∈ domainNames d := by
      intro n hn
      refine methodNames_mem h _ ?_
      simp only [methodNames, List.mem_append, htnNames, List.mem_flatMap]
      exact .inr ⟨s, hs, hn⟩
    refine ⟨key _ ?_, fun v hv => key _ ?_⟩
    · simp only [subtaskNames, List.mem_append]
      exact .inl (.inr (symbolNames_self _))
    · simp only [subtaskNames, List.mem_append, List.mem_flatMap]
      exact .inr ⟨v, hv, symbolNames_self _⟩

theorem Spec.Repeats.mem {l : List (Name × Nat)} {e : DupErr} (h : Repeats l e) :
    (e.symbol, e.first) ∈ l ∧ (e.symbol, e.second) ∈ l := by
  obtain ⟨a, x, b, y, c, rfl, _, hxy, rfl⟩ := h
  refine ⟨?_, by simp⟩
  have : (x.1, x.2) = (y.1, x.2) := by rw [hxy]
  simp only [← this]; simp

theorem Spec.Misfit.arg {types : List Symbol} {scope : List (List Symbol)} {args formals : List Symbol} {e : TypeErr}
    (h : Misfit types scope args formals e) : ∃ v ∈ args, e.var = v.name ∧ e.pos = v.pos := by
  obtain ⟨i, v, f, h1, _, h2, h3, _⟩ := h
  exact ⟨v, List.mem_of_getElem? h1, h2, h3⟩

/-- What a report on a domain mentions is in the domain. -/
theorem Spec.DomainReport.mentioned {se : SemErr} (h : DomainReport d se) : ∀ n ∈ mentions se, n ∈ domainNames d := by
  intro n hn
  have two {a b n : Name × Nat} (hn : n ∈ [a, b]) (ha : a ∈ domainNames d) (hb : b ∈ domainNames d) : n ∈ domainNames d := by
    simp only [List.mem_cons, List.not_mem_nil, or_false] at hn
    rcases hn with rfl | rfl
    · exact ha
    · exact hb
  have one {a n : Name × Nat} (hn : n ∈ [a]) (ha : a ∈ domainNames d) : n ∈ domainNames d := by
    simp only [List.mem_cons, List.not_mem_nil, or_false] at hn
    rw [hn]; exact ha
  have dup {α : Type} {l : List α} {kp : α → Name × Nat} {e : DupErr} (hr : Repeats (l.map kp) e)
      (hl : ∀ x ∈ l, kp x ∈ domainNames d) : (e.symbol, e.first) ∈ domainNames d ∧ (e.symbol, e.second) ∈ domainNames d := by
    have := hr.mem
    simp only [List.mem_map] at this
    obtain ⟨⟨x, hx, h1⟩, y, hy, h2⟩ := this
    exact ⟨h1 ▸ hl x hx, h2 ▸ hl y hy⟩
  cases h with
  | dupRequirement => simp [mentions] at hn
  | cyclicType => simp [mentions] at hn
  | cyclicOrdering => simp [mentions] at hn
  | dupPredicate h =>
    have := dup h fun x hx => predNames_mem hx _ (predNames_self x)
    exact two hn this.1 this.2
  | dupTask h =>
    have := dup h fun x hx => taskNames_mem hx _ (by simp [taskNames])
    exact two hn this.1 this.2
  | dupAction h =>
    have := dup h fun x hx => actionNames_mem hx _ (by simp [actionNames])
    exact two hn this.1 this.2
  | dupMethod h =>
    have := dup h fun x hx => methodNames_mem hx _ (by
      simp only [methodNames, List.mem_append]
      exact .inl (.inl (.inl (.inl (.inl (symbolNames_self _))))))
    exact two hn this.1 this.2
  | dupActionParameter ha h =>
    have := dup h fun x hx => (ParamsOf.action ha).names x hx _ (symbolNames_self x)
    exact two hn this.1 this.2
  | dupMethodParameter ha h =>
    have := dup h fun x hx => (ParamsOf.method ha).names x hx _ (symbolNames_self x)
    exact two hn this.1 this.2
  | undefType hl hs h1 h2 => exact one hn (hl.names _ hs _ (symbolNames_ty h1 h2))
  | undefPredicate hf ho => exact one hn (hf.names _ (ho.names _ (predNames_self _)))
  | predArity hf ho => exact one hn (hf.names _ (ho.names _ (predNames_self _)))
  | undefVariable hf ho hv => exact one hn (hf.names _ (ho.occurs.names _ (predNames_var hv)))
  | predArgType hf ho _ _ hm =>
    obtain ⟨v, hv, h1, h2⟩ := hm.arg
    exact one hn (by rw [h1, h2]; exact hf.names _ (ho.occurs.names _ (predNames_var hv)))
  | undefTask hm => exact one hn (CallOf.task hm).names.1
  | methodArity hm => exact one hn (CallOf.task hm).names.1
  | undefTerm hc hv => exact one hn (hc.names.2 _ hv)
  | undefSubtask hm hs => exact one hn (CallOf.subtask hm hs).names.1
  | subtaskArity hm hs => exact one hn (CallOf.subtask hm hs).names.1
  | methodTaskType hm _ _ h =>
    obtain ⟨v, hv, h1, h2⟩ := h.arg
    exact one hn (by rw [h1, h2]; exact (CallOf.task hm).names.2 _ hv)
  | subtaskType hm hs _ h =>
    obtain ⟨v, hv, h1, h2⟩ := h.arg
    exact one hn (by rw [h1, h2]; exact (CallOf.subtask hm hs).names.2 _ hv)

theorem Spec.FactOf.names {a : Predicate} (h : FactOf p a) : ∀ n ∈ predNames a, n ∈ problemNames p := by
  intro n hn
  unfold problemNames
  simp only [List.mem_append, List.mem_flatMap]
  cases h with
  | init h => exact .inl (.inl (.inr ⟨a, h, hn⟩))
  | goal h ho => exact .inl (.inr (by rw [h]; exact ho.occurs.names n hn))

theorem objectNames_mem {s : Symbol} (h : s ∈ p.objects) : ∀ n ∈ symbolNames s, n ∈ problemNames p := by
  intro n hn
  unfold problemNames
  simp only [List.mem_append, List.mem_flatMap]
  exact .inl (.inl (.inl ⟨s, h, hn⟩))

theorem initTnNames_mem {h : InitTN} {s : Subtask} (hp : p.initTn = some h) (hs : s ∈ h.tn.subtasks) :
    ∀ n ∈ subtaskNames s, n ∈ problemNames p := by
  intro n hn
  unfold problemNames
  rw [hp]
  simp only [List.mem_append, htnNames, List.mem_flatMap]
  exact .inr (.inr ⟨s, hs, hn⟩)

theorem subtaskNames_task (s : Subtask) : (s.task.name, s.task.pos) ∈ subtaskNames s := by
  simp only [subtaskNames, List.mem_append]
  exact .inl (.inr (symbolNames_self _))

theorem subtaskNames_term {s : Subtask} {v : Symbol} (h : v ∈ s.terms) : (v.name, v.pos) ∈ subtaskNames s := by
  simp only [subtaskNames, List.mem_append, List.mem_flatMap]
  exact .inr ⟨v, h, symbolNames_self _⟩

/-- The report is about the type of an argument. -/
def isTypeErr : SemErr → Bool
  | .predArgType _ | .taskArgType _ => true
  | _ => false

/-- What a report on a problem mentions is in the problem, except for reports about types of arguments. -/
theorem Spec.ProblemReport.mentioned {se : SemErr} (h : ProblemReport d p se) (ht : isTypeErr se = false) :
    ∀ n ∈ mentions se, n ∈ problemNames p := by
  intro n hn
  have one {a n : Name × Nat} (hn : n ∈ [a]) (ha : a ∈ problemNames p) : n ∈ problemNames p := by
    simp only [List.mem_cons, List.not_mem_nil, or_false] at hn
    rw [hn]; exact ha
  cases h with
  | undefType hs h1 h2 => exact one hn (objectNames_mem hs _ (symbolNames_ty h1 h2))
  | dupObject h =>
    have := h.mem
    simp only [List.mem_map, Prod.mk.injEq] at this
    obtain ⟨⟨x, hx, h1, h1'⟩, y, hy, h2, h2'⟩ := this
    simp only [mentions, List.mem_cons, List.not_mem_nil, or_false] at hn
    rcases hn with rfl | rfl
    · rw [← h1, ← h1']; exact objectNames_mem hx _ (symbolNames_self x)
    · rw [← h2, ← h2']; exact objectNames_mem hy _ (symbolNames_self y)
  | undefPredicate h => exact one hn (h.names _ (predNames_self _))
  | predArity h => exact one hn (h.names _ (predNames_self _))
  | undefObject h hv => exact one hn (h.names _ (predNames_var hv))
  | constantType | objectType | termType | termConstantType => simp [isTypeErr] at ht
  | undefSubtask h hs => exact one hn (initTnNames_mem h hs _ (subtaskNames_task _))
  | taskArity h hs => exact one hn (initTnNames_mem h hs _ (subtaskNames_task _))
  | undefTerm h hs hv => exact one hn (initTnNames_mem h hs _ (subtaskNames_term hv))
  | cyclicOrdering => simp [mentions] at hn

end Verif
