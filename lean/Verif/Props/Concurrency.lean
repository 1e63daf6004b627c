import Verif.Props.ServerFiles

/-! C57 and C58: the language server with concurrent handlers. -/

namespace Verif

open Spec

/-! ### What a request sees -/

theorem notes_append (a b : List (Msg DocUrl)) : notes (a ++ b) = notes a ++ notes b := by
  induction a with
  | nil => rfl
  | cons m a ih => cases m <;> simp [notes, ih]

theorem mem_notes {e : LspEvent DocUrl} {ms : List (Msg DocUrl)} : e ∈ notes ms ↔ .note e ∈ ms := by
  induction ms with
  | nil => simp [notes]
  | cons m ms ih => cases m <;> simp [notes, ih]

/-- The store that the sequential server has after these messages. -/
abbrev after (ms : List (Msg DocUrl)) : Store DocUrl := Store.run [] (notes ms)

theorem after_snoc (ms : List (Msg DocUrl)) (m : Msg DocUrl) : after (ms ++ [m]) =
    match m with
    | .note e => (after ms).handle e
    | .ask _ => after ms := by
  unfold after
  rw [notes_append]
  cases m with
  | note e => simp [notes, Store.run]
  | ask u => simp [notes]

/-- For `u`, the store is as it should be after `ms`: that of the sequential server, if `u` is not read from disk. -/
structure Same (world : FileSys → Prop) (σ : Store DocUrl) (ms : List (Msg DocUrl)) (u : DocUrl) : Prop where
  fresh : ¬ ReadsDisk u ms → σ.get u = (after ms).get u
  origin : ∀ t, σ.get u = some t → Origin world ms u t
  synced : ∀ t, ∀ m ∈ ms, Brings u t m → σ.get u ≠ none

/-- The store after all waiting writers. -/
def drain (σ : Store DocUrl) : List (Waiter DocUrl) → Store DocUrl
  | [] => σ
  | .write _ u t :: q => drain (σ.sync u t) q
  | .read _ _ :: q => drain σ q

/-- Request `i` is for `u` and sees, in this store, what it should. -/
def Sees (world : FileSys → Prop) (msgs : List (Msg DocUrl)) (σ : Store DocUrl) (i : Nat) (u : DocUrl) : Prop :=
  msgs[i]? = some (.ask u) ∧ Same world σ (msgs.take i) u

/-- Every waiting reader will see what it should. -/
def QueueOk (world : FileSys → Prop) (msgs : List (Msg DocUrl)) (σ : Store DocUrl) : List (Waiter DocUrl) → Prop
  | [] => True
  | .write _ u t :: q => QueueOk world msgs (σ.sync u t) q
  | .read i u :: q => Sees world msgs σ i u ∧ QueueOk world msgs σ q

theorem drain_append (σ : Store DocUrl) (q r : List (Waiter DocUrl)) : drain σ (q ++ r) = drain (drain σ q) r := by
  induction q generalizing σ with
  | nil => rfl
  | cons w q ih => cases w <;> exact ih _

theorem queueOk_append {world : FileSys → Prop} {msgs : List (Msg DocUrl)} {σ : Store DocUrl} {q r : List (Waiter DocUrl)} :
    QueueOk world msgs σ (q ++ r) ↔ QueueOk world msgs σ q ∧ QueueOk world msgs (drain σ q) r := by
  induction q generalizing σ with
  | nil => simp [QueueOk, drain]
  | cons w q ih =>
    cases w with
    | write i u t => exact ih
    | read i u => simp only [List.cons_append, QueueOk, ih, drain, and_assoc]

/-- The requests among the waiting handlers. -/
def asks : List (Waiter DocUrl) → List Nat
  | [] => []
  | .write _ _ _ :: q => asks q
  | .read i _ :: q => i :: asks q

theorem asks_append (q r : List (Waiter DocUrl)) : asks (q ++ r) = asks q ++ asks r := by
  induction q with
  | nil => rfl
  | cons w q ih => cases w <;> simp [asks, ih]

/-- All requests that were started, wherever they are. -/
def Server.asked (s : Server DocUrl) : List Nat := asks s.queue ++ s.readers.map (·.1) ++ s.answers.map (·.1)

variable [Env] {ord : HashOrd} {world : FileSys → Prop} {msgs : List (Msg DocUrl)}

/-- An answer to a request for `u` that is received after `ms`: one for a text that the server can have got, or, if no
text was received, that there is none. -/
def Answered (ord : HashOrd) (world : FileSys → Prop) (ms : List (Msg DocUrl)) (fs : FileSys) (u : DocUrl)
    (r : R LspAnswer) : Prop :=
  (r = .ok .notSynced ∧ ∀ t, ∀ m ∈ ms, ¬ Brings u t m) ∨
    ∃ t, Origin world ms u t ∧ AnswersFs ord (Store.run [] [.didOpen u t]) fs u r

/-- What holds in every state of the server. -/
structure Inv (ord : HashOrd) (world : FileSys → Prop) (msgs : List (Msg DocUrl)) (s : Server DocUrl) : Prop where
  inbox : s.inbox = msgs.drop s.started
  bound : s.started ≤ msgs.length
  reading : ∀ i u, (i, u) ∈ s.reading → i < s.started ∧ ∃ d, msgs[i]? = some (.note (.didSave u none d))
  store : ∀ u, Same world (drain s.store s.queue) (msgs.take s.started) u
  queue : QueueOk world msgs s.store s.queue
  readers : ∀ i u, (i, u) ∈ s.readers → Sees world msgs s.store i u
  answers : ∀ i x, (i, x) ∈ s.answers → ∃ u, msgs[i]? = some (.ask u) ∧
    (¬ ReadsDisk u (msgs.take i) → ∃ fs, world fs ∧ AnswersFs ord (after (msgs.take i)) fs u (.ok x)) ∧
    ∃ fs, world fs ∧ Answered ord world (msgs.take i) fs u (.ok x)
  asked : ∀ i, i ∈ s.asked ↔ i < s.started ∧ ∃ u, msgs[i]? = some (.ask u)
  nodup : s.asked.Nodup
  dead : s.dead = true → (∃ u fs, ReadsDisk u msgs ∧ world fs ∧ fs.read u.path = none) ∨
    ∃ i u fs t p, msgs[i]? = some (.ask u) ∧ world fs ∧ Origin world (msgs.take i) u t ∧
      AnswersFs ord (Store.run [] [.didOpen u t]) fs u (.panic p) ∧
      (¬ ReadsDisk u (msgs.take i) → AnswersFs ord (after (msgs.take i)) fs u (.panic p))

theorem Inv.init : Inv ord world msgs (Server.init msgs) where
  inbox := rfl
  bound := Nat.zero_le _
  reading := fun _ _ h => nomatch h
  store := fun u => ⟨fun _ => rfl, (fun _ h => nomatch h), fun _ _ h => nomatch h⟩
  queue := trivial
  readers := fun _ _ h => nomatch h
  answers := fun _ _ h => nomatch h
  asked := fun i => by simp [Server.init, Server.asked, asks]
  nodup := by simp [Server.init, Server.asked, asks]
  dead := fun h => nomatch h

omit [Env] in
theorem get_sync_ne {σ : Store DocUrl} {u v : DocUrl} {t : Bytes} (h : u ≠ v) : (σ.sync u t).get v = σ.get v := by
  rw [Store.get_sync, if_neg h]

omit [Env] in
theorem drain_snoc_write (σ : Store DocUrl) (q : List (Waiter DocUrl)) (i : Nat) (u : DocUrl) (t : Bytes) :
    drain σ (q ++ [.write i u t]) = (drain σ q).sync u t := by
  rw [drain_append]; rfl

omit [Env] in
theorem readsDisk_mono {u : DocUrl} {ms ns : List (Msg DocUrl)} (h : ReadsDisk u ms) : ReadsDisk u (ms ++ ns) :=
  let ⟨d, h⟩ := h; ⟨d, List.mem_append_left _ h⟩

omit [Env] in
theorem origin_mono {ms ns : List (Msg DocUrl)} {u : DocUrl} {t : Bytes} (h : Origin world ms u t) :
    Origin world (ms ++ ns) u t := by
  rcases h with ⟨m, hm, h⟩ | ⟨h, hw⟩
  · exact .inl ⟨m, List.mem_append_left _ hm, h⟩
  · exact .inr ⟨readsDisk_mono h, hw⟩

omit [Env] in
theorem not_readsDisk_append {u : DocUrl} {ms ns : List (Msg DocUrl)} (h : ¬ ReadsDisk u (ms ++ ns)) :
    ¬ ReadsDisk u ms ∧ ¬ ReadsDisk u ns :=
  ⟨fun h' => h (readsDisk_mono h'), fun ⟨d, h'⟩ => h ⟨d, List.mem_append_right _ h'⟩⟩

section
variable {σ : Store DocUrl} {ms : List (Msg DocUrl)} {v : DocUrl}

omit [Env] in
theorem Same.ask (h : Same world σ ms v) {u : DocUrl} : Same world σ (ms ++ [.ask u]) v := by
  refine ⟨fun hd => ?_, fun t ht => origin_mono (h.origin t ht), fun t m hm hb => ?_⟩
  · rw [after_snoc]; exact h.fresh (not_readsDisk_append hd).1
  · rcases List.mem_append.mp hm with hm | hm
    · exact h.synced t m hm hb
    · rw [List.mem_singleton] at hm
      subst hm
      rcases hb with h | ⟨d, h⟩ | ⟨ts, h⟩ <;> cases h

omit [Env] in
theorem brings_unique {u v : DocUrl} {t t' : Bytes} {m : Msg DocUrl} (h : Brings u t m) (h' : Brings v t' m) : u = v := by
  rcases h with rfl | ⟨d, rfl⟩ | ⟨ts, rfl⟩ <;> rcases h' with h' | ⟨d, h'⟩ | ⟨ts, h'⟩ <;> cases h' <;> rfl

omit [Env] in
theorem Same.write (h : Same world σ ms v) {e : LspEvent DocUrl} {u : DocUrl} {t : Bytes} (hb : Brings u t (.note e))
    (he : ∀ σ : Store DocUrl, σ.handle e = σ.sync u t) {i : Nat} :
    Same world (drain σ [.write i u t]) (ms ++ [.note e]) v := by
  show Same world (σ.sync u t) _ _
  refine ⟨fun hd => ?_, fun t' ht => ?_, fun t' m hm hb' => ?_⟩
  · rw [after_snoc]
    dsimp only
    rw [he, Store.get_sync, Store.get_sync, h.fresh (not_readsDisk_append hd).1]
  · rw [Store.get_sync] at ht
    split at ht
    · rename_i hu
      subst hu
      cases ht
      exact .inl ⟨_, by simp, hb⟩
    · exact origin_mono (h.origin t' ht)
  · rw [Store.get_sync]
    split
    · simp
    · rename_i hu
      rcases List.mem_append.mp hm with hm | hm
      · exact h.synced t' m hm hb'
      · rw [List.mem_singleton] at hm
        subst hm
        exact absurd (brings_unique hb hb') hu

omit [Env] in
theorem Same.skip (h : Same world σ ms v) {e : LspEvent DocUrl}
    (he : ∀ σ : Store DocUrl, ¬ ReadsDisk v [.note e] → (σ.handle e).get v = σ.get v)
    (hb : ∀ t, ¬ Brings v t (.note e)) : Same world (drain σ []) (ms ++ [.note e]) v := by
  refine ⟨fun hd => ?_, fun t ht => origin_mono (h.origin t ht), fun t m hm hb' => ?_⟩
  · rw [after_snoc]
    dsimp only
    rw [he _ (not_readsDisk_append hd).2]
    exact h.fresh (not_readsDisk_append hd).1
  · rcases List.mem_append.mp hm with hm | hm
    · exact h.synced t m hm hb'
    · rw [List.mem_singleton] at hm
      subst hm
      exact absurd hb' (hb t)

/-- What a request that holds the lock is answered. -/
theorem Same.answered (h : Same world σ ms v) {fs : FileSys} {n : Nat} {x : LspAnswer}
    (hx : diagnosticFs ord n σ fs v = .ok x) : Answered ord world ms fs v (.ok x) := by
  cases hg : σ.get v with
  | none =>
    refine .inl ⟨?_, fun t m hm hb => h.synced t m hm hb hg⟩
    rw [← hx]
    simp only [diagnosticFs, hg]
  | some t =>
    refine .inr ⟨t, h.origin t hg, answersFs_of_run (n := n) (by simp) ?_⟩
    rw [← hx]
    exact diagnosticFs_congr (by rw [hg]; simp [Store.run, Store.handle, Store.get_sync]) n fs

end

section
variable {s : Server DocUrl} {m : Msg DocUrl} {ms : List (Msg DocUrl)}

theorem Inv.next (h : Inv ord world msgs s) (hm : s.inbox = m :: ms) : msgs[s.started]? = some m ∧
    s.started < msgs.length ∧ msgs.take (s.started + 1) = msgs.take s.started ++ [m] ∧ ms = msgs.drop (s.started + 1) := by
  have hget : msgs[s.started]? = some m := by
    have := congrArg List.head? (h.inbox.symm.trans hm)
    rwa [List.head?_drop] at this
  refine ⟨hget, (List.getElem?_eq_some_iff.mp hget).1, ?_, ?_⟩
  · rw [List.take_add_one, hget]; rfl
  · have := congrArg List.tail (h.inbox.symm.trans hm)
    rw [List.tail_drop] at this
    exact this.symm

/-- A message that changes the queue by writers only, or starts to read. -/
theorem Inv.startNote (h : Inv ord world msgs s) {e : LspEvent DocUrl} (hm : s.inbox = .note e :: ms)
    {q : List (Waiter DocUrl)} {r : List (Nat × DocUrl)} (hq : asks q = []) (hok : ∀ σ, QueueOk world msgs σ q)
    (hr : ∀ i u, (i, u) ∈ r → i = s.started ∧ ∃ d, e = .didSave u none d)
    (hs : ∀ σ v ms, Same world σ ms v → Same world (drain σ q) (ms ++ [.note e]) v) :
    Inv ord world msgs { s with queue := s.queue ++ q, reading := s.reading ++ r, inbox := ms, started := s.started + 1 } := by
  obtain ⟨hget, hlt, htake, hdrop⟩ := h.next hm
  have hask : Server.asked { s with queue := s.queue ++ q, reading := s.reading ++ r, inbox := ms, started := s.started + 1 } =
      s.asked := by simp [Server.asked, asks_append, hq]
  refine ⟨hdrop, hlt, ?_, ?_, queueOk_append.mpr ⟨h.queue, hok _⟩, h.readers, h.answers, ?_, ?_, h.dead⟩
  · intro i v hi
    rcases List.mem_append.mp hi with hi | hi
    · obtain ⟨h1, h2⟩ := h.reading i v hi
      exact ⟨Nat.lt_succ_of_lt h1, h2⟩
    · obtain ⟨rfl, d, rfl⟩ := hr i v hi
      exact ⟨Nat.lt_succ_self _, d, hget⟩
  · intro v
    show Same world (drain s.store (s.queue ++ q)) (msgs.take (s.started + 1)) v
    rw [htake, drain_append]
    exact hs _ v _ (h.store v)
  · intro i
    rw [hask, h.asked i]
    constructor
    · rintro ⟨h1, h2⟩; exact ⟨Nat.lt_succ_of_lt h1, h2⟩
    · rintro ⟨h1, v, h2⟩
      refine ⟨?_, v, h2⟩
      rcases Nat.lt_succ_iff_lt_or_eq.mp h1 with h1 | rfl
      · exact h1
      · rw [hget] at h2; cases h2
  · rw [hask]; exact h.nodup

theorem Inv.startAsk (h : Inv ord world msgs s) {u : DocUrl} (hm : s.inbox = .ask u :: ms) :
    Inv ord world msgs { s with queue := s.queue ++ [.read s.started u], inbox := ms, started := s.started + 1 } := by
  obtain ⟨hget, hlt, htake, hdrop⟩ := h.next hm
  have hask : (Server.asked { s with queue := s.queue ++ [.read s.started u], inbox := ms, started := s.started + 1 }).Perm
      (s.started :: s.asked) := by
    simp only [Server.asked, asks_append, asks, List.append_assoc]
    exact List.perm_middle
  refine ⟨hdrop, hlt, ?_, ?_, queueOk_append.mpr ⟨h.queue, ⟨hget, ?_⟩, trivial⟩, h.readers, h.answers, ?_, ?_, h.dead⟩
  · intro i v hi
    obtain ⟨h1, h2⟩ := h.reading i v hi
    exact ⟨Nat.lt_succ_of_lt h1, h2⟩
  · intro v
    show Same world (drain s.store (s.queue ++ [.read s.started u])) (msgs.take (s.started + 1)) v
    rw [htake, drain_append]
    exact (h.store v).ask
  · exact h.store u
  · intro i
    rw [hask.mem_iff, List.mem_cons, h.asked i]
    constructor
    · rintro (rfl | ⟨h1, h2⟩)
      · exact ⟨Nat.lt_succ_self _, u, hget⟩
      · exact ⟨Nat.lt_succ_of_lt h1, h2⟩
    · rintro ⟨h1, v, h2⟩
      rcases Nat.lt_succ_iff_lt_or_eq.mp h1 with h1 | rfl
      · exact .inr ⟨h1, v, h2⟩
      · exact .inl rfl
  · rw [hask.nodup_iff, List.nodup_cons, h.asked]
    exact ⟨fun h => absurd h.1 (Nat.lt_irrefl _), h.nodup⟩

theorem Inv.start (h : Inv ord world msgs s) (hm : s.inbox = m :: ms) :
    Inv ord world msgs { s.start m with inbox := ms, started := s.started + 1 } := by
  cases m with
  | ask u => exact h.startAsk hm
  | note e =>
    cases e with
    | didOpen u t =>
      have := h.startNote hm (q := [.write s.started u t]) (r := []) rfl (fun _ => trivial) (fun _ _ h => nomatch h)
        (fun σ v ms h => h.write (.inl rfl) fun _ => rfl)
      rwa [List.append_nil] at this
    | didSave u t d =>
      cases t with
      | some t =>
        have := h.startNote hm (q := [.write s.started u t]) (r := []) rfl (fun _ => trivial) (fun _ _ h => nomatch h)
          (fun σ v ms h => h.write (.inr (.inl ⟨d, rfl⟩)) fun _ => rfl)
        rwa [List.append_nil] at this
      | none =>
        have := h.startNote hm (q := []) (r := [(s.started, u)]) rfl (fun _ => trivial)
          (fun i v h => by
            rw [List.mem_singleton] at h; cases h
            exact ⟨rfl, d, rfl⟩)
          (fun σ v ms h => by
            refine h.skip (fun σ hv => get_sync_ne fun h => hv ?_) ?_
            · subst h
              exact ⟨d, List.mem_singleton.mpr rfl⟩
            · rintro t (h | ⟨d, h⟩ | ⟨ts, h⟩) <;> cases h)
        rwa [List.append_nil] at this
    | didChange u ts =>
      cases ts with
      | nil =>
        have := h.startNote hm (q := []) (r := []) rfl (fun _ => trivial) (fun _ _ h => nomatch h)
          (fun σ v ms h => h.skip (fun _ _ => rfl) (by rintro t (h | ⟨d, h⟩ | ⟨ts, h⟩) <;> cases h))
        rwa [List.append_nil, List.append_nil] at this
      | cons t ts =>
        have := h.startNote hm (q := [.write s.started u t]) (r := []) rfl (fun _ => trivial) (fun _ _ h => nomatch h)
          (fun σ v ms h => h.write (.inr (.inr ⟨ts, rfl⟩)) fun _ => rfl)
        rwa [List.append_nil] at this

end

theorem Inv.step {s t : Server DocUrl} (h : Inv ord world msgs s) (hst : Server.Step ord world s t) : Inv ord world msgs t := by
  cases hst with
  | start hd hm ha => exact h.start hm
  | @diskRead a b i u fs text hd hr hw hf =>
    obtain ⟨h1, d, h2⟩ := h.reading i u (by rw [hr]; simp)
    have hin : ReadsDisk u (msgs.take s.started) := by
      refine ⟨d, ?_⟩
      have : (msgs.take s.started)[i]? = some (.note (.didSave u none d)) := by
        rw [List.getElem?_take_of_lt h1]; exact h2
      exact List.mem_of_getElem? this
    refine ⟨h.inbox, h.bound, ?_, ?_, queueOk_append.mpr ⟨h.queue, trivial⟩, h.readers, h.answers, ?_, ?_, h.dead⟩
    · intro j v hj
      refine h.reading j v ?_
      rw [hr]
      simp only [List.mem_append, List.mem_cons] at hj ⊢
      rcases hj with hj | hj
      · exact .inl hj
      · exact .inr (.inr hj)
    · intro v
      show Same world (drain s.store (s.queue ++ [.write i u text])) _ _
      rw [drain_snoc_write]
      by_cases hv : u = v
      · subst hv
        have hg : ((drain s.store s.queue).sync u text).get u = some text := by rw [Store.get_sync, if_pos rfl]
        refine ⟨fun h => absurd hin h, fun t ht => ?_, fun _ _ _ _ => by rw [hg]; simp⟩
        rw [hg] at ht
        cases ht
        exact .inr ⟨hin, fs, hw, hf⟩
      · obtain ⟨g1, g2, g3⟩ := h.store v
        rw [← get_sync_ne (t := text) hv] at g1 g2 g3
        exact ⟨g1, g2, g3⟩
    · intro j
      have := h.asked j
      simpa [Server.asked, asks_append, asks] using this
    · simpa [Server.asked, asks_append, asks] using h.nodup
  | @diskFail a b i u fs hd hr hw hf =>
    obtain ⟨h1, d, h2⟩ := h.reading i u (by rw [hr]; simp)
    exact ⟨h.inbox, h.bound, h.reading, h.store, h.queue, h.readers, h.answers, h.asked, h.nodup,
      fun _ => .inl ⟨u, fs, ⟨d, List.mem_of_getElem? h2⟩, hw, hf⟩⟩
  | @write q i u t hd hq hr =>
    have hst := h.store
    have hqo := h.queue
    have hak := h.asked
    have hnd := h.nodup
    unfold Server.asked at hak hnd
    rw [hq] at hst hqo hak hnd
    refine ⟨h.inbox, h.bound, h.reading, hst, hqo, ?_, h.answers, hak, hnd, h.dead⟩
    intro j v hj
    rw [show (_ : Server DocUrl).readers = s.readers from rfl, hr] at hj
    cases hj
  | @read q i u hd hq =>
    have hst := h.store
    have hqo := h.queue
    have hak := h.asked
    have hnd := h.nodup
    unfold Server.asked at hak hnd
    rw [hq] at hst hqo hak hnd
    have hperm : (Server.asked { s with queue := q, readers := s.readers ++ [(i, u)] }).Perm
        (asks (.read i u :: q) ++ s.readers.map (·.1) ++ s.answers.map (·.1)) := by
      simp only [Server.asked, asks, List.map_append, List.map_cons, List.map_nil, List.append_assoc, List.cons_append,
        List.nil_append]
      rw [← List.append_assoc]
      refine List.perm_middle.trans ?_
      rw [List.append_assoc]
    refine ⟨h.inbox, h.bound, h.reading, hst, hqo.2, ?_, h.answers, fun j => ?_, hperm.nodup_iff.mpr hnd, h.dead⟩
    · intro j v hj
      rcases List.mem_append.mp hj with hj | hj
      · exact h.readers j v hj
      · rw [List.mem_singleton] at hj; cases hj
        exact hqo.1
    · rw [hperm.mem_iff]; exact hak j
  | @answer a b i u n fs x hd hr hf hx =>
    obtain ⟨h1, h2⟩ := h.readers i u (by rw [hr]; simp)
    have hak := h.asked
    have hnd := h.nodup
    unfold Server.asked at hak hnd
    rw [hr] at hak hnd
    have hperm : (Server.asked { s with readers := a ++ b, answers := s.answers ++ [(i, x)] }).Perm
        (asks s.queue ++ (a ++ (i, u) :: b).map (·.1) ++ s.answers.map (·.1)) := by
      simp only [Server.asked, List.map_append, List.map_cons, List.map_nil, List.append_assoc, List.cons_append]
      refine List.Perm.append_left _ (List.Perm.append_left _ ?_)
      rw [← List.append_assoc]
      exact List.perm_append_singleton _ _
    refine ⟨h.inbox, h.bound, h.reading, h.store, h.queue, ?_, ?_, fun j => ?_, hperm.nodup_iff.mpr hnd, h.dead⟩
    · intro j v hj
      refine h.readers j v ?_
      rw [hr]
      simp only [List.mem_append, List.mem_cons] at hj ⊢
      rcases hj with hj | hj
      · exact .inl hj
      · exact .inr (.inr hj)
    · intro j y hj
      rcases List.mem_append.mp hj with hj | hj
      · exact h.answers j y hj
      · rw [List.mem_singleton] at hj; cases hj
        refine ⟨u, h1, fun hc => ⟨fs, hf, answersFs_of_run (n := n) (by simp) ?_⟩, fs, hf, h2.answered hx⟩
        rw [← diagnosticFs_congr (h2.fresh hc)]; exact hx
    · rw [hperm.mem_iff]; exact hak j
  | @crash a b i u n fs p hd hr hf hx =>
    obtain ⟨h1, h2⟩ := h.readers i u (by rw [hr]; simp)
    refine ⟨h.inbox, h.bound, h.reading, h.store, h.queue, h.readers, h.answers, h.asked, h.nodup, fun _ => ?_⟩
    cases hg : s.store.get u with
    | none => simp only [diagnosticFs, hg] at hx; cases hx
    | some t =>
      refine .inr ⟨i, u, fs, t, p, h1, hf, h2.origin t hg, answersFs_of_run (n := n) (by simp) ?_,
        fun hc => answersFs_of_run (n := n) (by simp) ?_⟩
      · rw [← hx]
        exact diagnosticFs_congr (by rw [hg]; simp [Store.run, Store.handle, Store.get_sync]) n fs
      · rw [← diagnosticFs_congr (h2.fresh hc)]; exact hx

theorem Inv.steps {k : Nat} {s : Server DocUrl} (h : Moves (Server.Step ord world) k (Server.init msgs) s) :
    Inv ord world msgs s := by
  generalize hi : Server.init msgs = s0 at h
  induction h with
  | refl s => subst hi; exact .init
  | tail h hst ih => exact (ih hi).step hst


/-! ### C57: requests and notifications in order -/

/-- C57, the part that holds: however the handlers are interleaved, every answer is for a diagnostic request, and it is
one that the server without concurrency gives after exactly the notifications received before that request, if the
document was not saved without its text before.  Missing: such saves, see `C57_refuted` and `C57_origin`. -/
theorem C57_answers_partial {k : Nat} {s : Server DocUrl} (h : Moves (Server.Step ord world) k (Server.init msgs) s)
    {i : Nat} {x : LspAnswer} (hx : (i, x) ∈ s.answers) : ∃ u, msgs[i]? = some (.ask u) ∧
    (¬ ReadsDisk u (msgs.take i) →
      ∃ fs, world fs ∧ AnswersFs ord (Store.run [] (notes (msgs.take i))) fs u (.ok x)) :=
  let ⟨u, h1, h2, _⟩ := (Inv.steps h).answers i x hx
  ⟨u, h1, h2⟩

/-- C57: every answer, also for documents saved without their text, is for a text of that document that was sent before
the request, or that its file had, if it was saved before; and a document for which a text was sent before is never
reported as unknown. -/
theorem C57_origin {k : Nat} {s : Server DocUrl} (h : Moves (Server.Step ord world) k (Server.init msgs) s)
    {i : Nat} {x : LspAnswer} (hx : (i, x) ∈ s.answers) : ∃ u, msgs[i]? = some (.ask u) ∧
    ((x = .notSynced ∧ ∀ t, ∀ m ∈ msgs.take i, ¬ Brings u t m) ∨
     ∃ fs t, world fs ∧ Origin world (msgs.take i) u t ∧ AnswersFs ord (Store.run [] [.didOpen u t]) fs u (.ok x)) := by
  obtain ⟨u, h1, _, fs, hw, h2⟩ := (Inv.steps h).answers i x hx
  refine ⟨u, h1, ?_⟩
  rcases h2 with ⟨h2, h3⟩ | ⟨t, h2, h3⟩
  · exact .inl ⟨R.ok.inj h2, h3⟩
  · exact .inr ⟨fs, t, hw, h2, h3⟩

/-- C57: so the answer is for the last text of the document that was received before the request: it is the answer of a
server that received only this text. -/
theorem C57_latest_partial {k : Nat} {s : Server DocUrl} (h : Moves (Server.Step ord world) k (Server.init msgs) s)
    {i : Nat} {x : LspAnswer} (hx : (i, x) ∈ s.answers) {u : DocUrl} (hi : msgs[i]? = some (.ask u))
    (hd : ¬ ReadsDisk u (msgs.take i)) (hes : OneChange (notes (msgs.take i))) {t : Bytes}
    (ht : Latest (notes (msgs.take i)) u t) :
    ∃ fs, world fs ∧ AnswersFs ord (Store.run [] [.didOpen u t]) fs u (.ok x) := by
  obtain ⟨v, hv, h1⟩ := C57_answers_partial h hx
  rw [hi] at hv; cases hv
  obtain ⟨fs, hf, N, hN⟩ := h1 hd
  refine ⟨fs, hf, N, fun n hn => ?_⟩
  rw [← hN n hn]
  exact diagnosticFs_congr (by rw [latest_get hes ht]; simp [Store.run, Store.handle, Store.get_sync]) n fs

/-- C57: no request is answered twice. -/
theorem C57_once {k : Nat} {s : Server DocUrl} (h : Moves (Server.Step ord world) k (Server.init msgs) s) :
    (s.answers.map (·.1)).Nodup :=
  (List.nodup_append.mp (Inv.steps h).nodup).2.1

omit [Env] in
theorem Moves.trans {S : Type} {R : S → S → Prop} {j k : Nat} {a b c : S} (h : Moves R j a b) (h' : Moves R k b c) :
    Moves R (j + k) a c := by
  induction h' with
  | refl => exact h
  | tail _ hr ih => exact .tail (ih h) hr

theorem Server.Step.begin {s t : Server DocUrl} {m : Msg DocUrl} {ms : List (Msg DocUrl)} (hd : s.dead = false) (hm : s.inbox = m :: ms)
    (ha : s.active < 4) (ht : { s.start m with inbox := ms, started := s.started + 1 } = t) : Server.Step ord world s t :=
  ht ▸ .start hd hm ha

theorem Server.Step.wrote {s t : Server DocUrl} {q : List (Waiter DocUrl)} {i : Nat} {u : DocUrl} {x : Bytes}
    (hd : s.dead = false) (hq : s.queue = .write i u x :: q) (hr : s.readers = [])
    (ht : { s with queue := q, store := s.store.sync u x } = t) : Server.Step ord world s t := ht ▸ .write hd hq hr

/-- A file system with one file and no folder that can be listed. -/
def oneFile (u : DocUrl) (t : Bytes) : FileSys := ⟨fun p => if p = u.path then some t else none, fun _ => none⟩

theorem stale_run (u : DocUrl) (t t' : Bytes) (x : LspAnswer) {n : Nat}
    (h : diagnosticFs ord n [(u, t)] (oneFile u t) u = .ok x) : Moves (Server.Step ord (· = oneFile u t)) 10
      (Server.init [.note (.didOpen u t), .note (.didSave u none t), .note (.didChange u [t']), .ask u])
      ⟨[], 4, [], [], [], [(u, t)], [(3, x)], false⟩ := by
  have h1 : Moves (Server.Step ord (· = oneFile u t)) 1
      (Server.init [.note (.didOpen u t), .note (.didSave u none t), .note (.didChange u [t']), .ask u])
      ⟨[.note (.didSave u none t), .note (.didChange u [t']), .ask u], 1, [], [.write 0 u t], [], [], [], false⟩ :=
    .tail (.refl _) (.begin rfl rfl (show 0 < 4 by omega) rfl)
  have h2 : Moves (Server.Step ord (· = oneFile u t)) 2 _
      ⟨[.note (.didSave u none t), .note (.didChange u [t']), .ask u], 1, [], [], [], [(u, t)], [], false⟩ :=
    .tail h1 (.write rfl rfl rfl)
  have h3 : Moves (Server.Step ord (· = oneFile u t)) 3 _
      ⟨[.note (.didChange u [t']), .ask u], 2, [(1, u)], [], [], [(u, t)], [], false⟩ :=
    .tail h2 (.begin rfl rfl (show 0 < 4 by omega) rfl)
  have h4 : Moves (Server.Step ord (· = oneFile u t)) 4 _
      ⟨[.ask u], 3, [(1, u)], [.write 2 u t'], [], [(u, t)], [], false⟩ :=
    .tail h3 (.begin rfl rfl (show 1 < 4 by omega) rfl)
  have h5 : Moves (Server.Step ord (· = oneFile u t)) 5 _ ⟨[.ask u], 3, [(1, u)], [], [], [(u, t')], [], false⟩ :=
    .tail h4 (.wrote rfl rfl rfl (by simp [Store.sync]))
  have h6 : Moves (Server.Step ord (· = oneFile u t)) 6 _
      ⟨[.ask u], 3, [], [.write 1 u t], [], [(u, t')], [], false⟩ :=
    .tail h5 (.diskRead (a := []) (b := []) (oneFile u t) t rfl rfl rfl (by simp [oneFile]))
  have h7 : Moves (Server.Step ord (· = oneFile u t)) 7 _ ⟨[.ask u], 3, [], [], [], [(u, t)], [], false⟩ :=
    .tail h6 (.wrote rfl rfl rfl (by simp [Store.sync]))
  have h8 : Moves (Server.Step ord (· = oneFile u t)) 8 _ ⟨[], 4, [], [.read 3 u], [], [(u, t)], [], false⟩ :=
    .tail h7 (.begin rfl rfl (show 0 < 4 by omega) rfl)
  have h9 : Moves (Server.Step ord (· = oneFile u t)) 9 _ ⟨[], 4, [], [], [(3, u)], [(u, t)], [], false⟩ :=
    .tail h8 (.read rfl rfl)
  exact .tail h9 (.answer (a := []) (b := []) (n := n) (oneFile u t) x rfl rfl rfl h)

omit [Env] in
/-- C57 does not hold for saves without text: the file is read while later messages are handled.  Here a document is
opened, saved and changed; the answer to the request that follows is for the text before the change, although all four
messages have been handled. -/
theorem C57_refuted : ∃ (u : DocUrl) (t t' : Bytes) (fs : FileSys) (s : Server DocUrl) (x : LspAnswer),
    Moves (@Server.Step Env.plain HashOrd.id (· = fs)) 10
      (Server.init [.note (.didOpen u t), .note (.didSave u none t), .note (.didChange u [t']), .ask u]) s ∧
    s.inbox = [] ∧ s.active = 0 ∧ s.dead = false ∧ s.answers = [(3, x)] ∧
    @AnswersFs Env.plain HashOrd.id (Store.run [] [.didOpen u t']) fs u (.ok (.report [])) ∧ x ≠ .report [] := by
  refine ⟨⟨none, b!"/d.hddl", []⟩, b!"(define (domain d)\n(:action a :parameters () :effect (p)))\n",
    b!"(define (domain d)\n(:task t :parameters ()))\n", _, _,
    .report [⟨1, 2, .error, [.s "line ", .i 2, .s ": ", .s "predicate", .s " ", .n b!"p", .s " is not defined."]⟩],
    @stale_run Env.plain _ _ _ _ _ 60 (by decide +kernel), rfl, rfl, rfl, rfl, ?_, by simp⟩
  exact @answersFs_of_run Env.plain _ _ _ _ 60 _ (by simp) (by decide +kernel)

/-! ### C58: every request is answered -/

/-- A bound on the number of steps that are left. -/
def Server.cost (s : Server DocUrl) : Nat :=
  4 * s.inbox.length + 3 * s.reading.length + 2 * s.queue.length + s.readers.length + if s.dead then 0 else 1

theorem Server.Step.cost {s t : Server DocUrl} (h : Server.Step ord world s t) : t.cost < s.cost := by
  cases h with
  | @start m ms hd hm ha =>
    cases m with
    | ask u => simp [Server.cost, Server.start, hm, hd]; omega
    | note e =>
      rcases e with ⟨u, t⟩ | ⟨u, _ | t, d⟩ | ⟨u, _ | ⟨t, ts⟩⟩ <;> simp [Server.cost, Server.start, hm, hd] <;> omega
  | diskRead fs text hd hr => simp [Server.cost, hr, hd]; omega
  | diskFail fs hd hr => simp [Server.cost, hd]
  | write hd hq hr => simp [Server.cost, hq, hd]
  | read hd hq => simp [Server.cost, hq, hd]; omega
  | answer folder x hd hr hf hx => simp [Server.cost, hr, hd]
  | crash folder p hd hr hf hx => simp [Server.cost, hd]

/-- C58: the server does not go on for ever: for `n` messages it makes at most `4 n + 1` steps. -/
theorem C58_bounded {k : Nat} {s : Server DocUrl} (h : Moves (Server.Step ord world) k (Server.init msgs) s) :
    k ≤ 4 * msgs.length + 1 := by
  have : k + s.cost ≤ (Server.init msgs).cost := by
    generalize Server.init msgs = s0 at h
    induction h with
    | refl => simp
    | tail _ hst ih => have := hst.cost; omega
  simp [Server.cost, Server.init] at this
  omega

/-- C58: when the server has nothing left to do and has not crashed, every request has been answered, unless the
analysis of a text held by the server does not end. -/
theorem C58_answered {k : Nat} {s : Server DocUrl} (h : Moves (Server.Step ord world) k (Server.init msgs) s)
    (hs : Stuck (Server.Step ord world) s) (hd : s.dead = false) (hw : ∃ fs, world fs) :
    (∀ (i : Nat) (u : DocUrl), msgs[i]? = some (.ask u) → ∃ x, (i, x) ∈ s.answers) ∨
    ∃ (i : Nat) (u : DocUrl) (t : Bytes), msgs[i]? = some (.ask u) ∧ Origin world (msgs.take i) u t ∧
      ∀ fs, world fs → AnswersFs ord (Store.run [] [.didOpen u t]) fs u .timeout ∧
        (¬ ReadsDisk u (msgs.take i) → AnswersFs ord (Store.run [] (notes (msgs.take i))) fs u .timeout) := by
  have hinv := Inv.steps h
  obtain ⟨fs₀, hw₀⟩ := hw
  cases hr : s.readers with
  | cons r rs =>
    obtain ⟨i, u⟩ := r
    obtain ⟨h1, h2⟩ := hinv.readers i u (by rw [hr]; simp)
    have h3 (fs) (hf : world fs) (n) : diagnosticFs ord n s.store fs u = .timeout := by
      cases hx : diagnosticFs ord n s.store fs u with
      | timeout => rfl
      | ok x => exact absurd (.answer (a := []) (b := rs) fs x hd hr hf hx) (hs _)
      | panic p => exact absurd (.crash (a := []) (b := rs) fs p hd hr hf hx) (hs _)
      | err e => exact absurd hx (noErr_diagnosticFs e)
    cases hg : s.store.get u with
    | none =>
      have := h3 fs₀ hw₀ 0
      simp only [diagnosticFs, hg] at this
      cases this
    | some t =>
      refine .inr ⟨i, u, t, h1, h2.origin t hg, fun fs hf => ⟨⟨0, fun n _ => ?_⟩, fun hc => ⟨0, fun n _ => ?_⟩⟩⟩
      · rw [← h3 fs hf n]
        exact diagnosticFs_congr (by rw [hg]; simp [Store.run, Store.handle, Store.get_sync]) n fs
      · rw [← diagnosticFs_congr (h2.fresh hc)]; exact h3 fs hf n
  | nil =>
    have hq : s.queue = [] := by
      cases hq : s.queue with
      | nil => rfl
      | cons w q =>
        cases w with
        | write i u t => exact absurd (.write hd hq hr) (hs _)
        | read i u => exact absurd (.read hd hq) (hs _)
    have hre : s.reading = [] := by
      cases hre : s.reading with
      | nil => rfl
      | cons r rs =>
        obtain ⟨i, u⟩ := r
        cases hf : fs₀.read u.path with
        | none => exact absurd (.diskFail (a := []) (b := rs) fs₀ hd hre hw₀ hf) (hs _)
        | some t => exact absurd (.diskRead (a := []) (b := rs) fs₀ t hd hre hw₀ hf) (hs _)
    have hi : s.inbox = [] := by
      cases hi : s.inbox with
      | nil => rfl
      | cons m ms => exact absurd (.start hd hi (by simp [Server.active, hq, hre, hr])) (hs _)
    have hst : s.started = msgs.length := by
      have h1 := hinv.inbox.symm.trans hi
      rw [List.drop_eq_nil_iff] at h1
      exact Nat.le_antisymm hinv.bound h1
    refine .inl fun i u hu => ?_
    have h1 := (hinv.asked i).mpr ⟨by rw [hst]; exact (List.getElem?_eq_some_iff.mp hu).1, u, hu⟩
    simp only [Server.asked, hq, hr, asks, List.map_nil, List.nil_append, List.mem_map] at h1
    obtain ⟨⟨j, x⟩, h1, rfl⟩ := h1
    exact ⟨x, h1⟩

/-- C58: the server crashes only if a document is saved without its text and its file cannot be read, or if the analysis
of a requested document panics. -/
theorem C58_crash {k : Nat} {s : Server DocUrl} (h : Moves (Server.Step ord world) k (Server.init msgs) s)
    (hd : s.dead = true) : (∃ u fs, ReadsDisk u msgs ∧ world fs ∧ fs.read u.path = none) ∨
    ∃ i u fs t p, msgs[i]? = some (.ask u) ∧ world fs ∧ Origin world (msgs.take i) u t ∧
      AnswersFs ord (Store.run [] [.didOpen u t]) fs u (.panic p) ∧
      (¬ ReadsDisk u (msgs.take i) → AnswersFs ord (Store.run [] (notes (msgs.take i))) fs u (.panic p)) :=
  (Inv.steps h).dead hd

/-! #### Requests that end -/

/-- C58, the part that holds: if saved files can be read, all texts received and on disk end with a blank or a
parenthesis, and no analysis panics, then the server never stops before every request is answered.  Missing: the other
cases, see `C58_refuted`, `C58_refuted_save` and `C58_blocked`. -/
theorem C58_served_partial {k : Nat} {s : Server DocUrl} (h : Moves (Server.Step ord world) k (Server.init msgs) s)
    (hs : Stuck (Server.Step ord world) s) (hw : ∃ fs, world fs)
    (hsave : ∀ u, ReadsDisk u msgs → ∀ fs, world fs → fs.read u.path ≠ none)
    (htext : ∀ m ∈ msgs, ∀ u t, Brings u t m → Ended t) (hdisk : ∀ fs, world fs → ∀ p t, fs.read p = some t → Ended t)
    (hpanic : ∀ (i : Nat) (u : DocUrl) (fs : FileSys) (t : Bytes) (p : Panic), msgs[i]? = some (.ask u) → world fs →
      Origin world (msgs.take i) u t → ¬ AnswersFs ord (Store.run [] [.didOpen u t]) fs u (.panic p))
    {i : Nat} {u : DocUrl} (hi : msgs[i]? = some (.ask u)) : ∃ x, (i, x) ∈ s.answers := by
  have hd : s.dead = false := by
    cases hd : s.dead with
    | false => rfl
    | true =>
      rcases C58_crash h hd with ⟨u, fs, h1, h2, h3⟩ | ⟨i, u, fs, t, p, h1, h2, h3, h4, _⟩
      · exact absurd h3 (hsave u h1 fs h2)
      · exact absurd h4 (hpanic i u fs t p h1 h2 h3)
  rcases C58_answered h hs hd hw with h1 | ⟨j, v, t, hj, ho, h1⟩
  · exact h1 i u hi
  · exfalso
    obtain ⟨fs, hf⟩ := hw
    have ht : Ended t := by
      rcases ho with ⟨m, hm, hb⟩ | ⟨_, fs', hf', hr⟩
      · exact htext m (List.mem_of_mem_take hm) v t hb
      · exact hdisk fs' hf' _ t hr
    obtain ⟨n, hn⟩ := diagnosticFs_ends (ord := ord) (s := Store.run [] [.didOpen v t]) (u := v)
      (fun t' ht' => by
        simp [Store.run, Store.handle, Store.get_sync] at ht'
        exact ht' ▸ ht)
      (hdisk fs hf)
    exact hn ((answersFs_of_run (n := n) hn rfl).det (h1 fs hf).1)

/-- A file system with no file and folders that are empty. -/
def noFiles : FileSys := ⟨fun _ => none, fun _ => some []⟩

theorem mixed_run {u : DocUrl} {t : Bytes} {x : LspAnswer} {n : Nat} (h : diagnosticFs ord n [(u, t)] noFiles u = .ok x) :
    Moves (Server.Step ord (· = noFiles)) 8 (Server.init [.ask u, .note (.didOpen u t), .ask u])
      ⟨[], 3, [], [], [], [(u, t)], [(0, .notSynced), (2, x)], false⟩ := by
  have h1 : Moves (Server.Step ord (· = noFiles)) 1 (Server.init [.ask u, .note (.didOpen u t), .ask u])
      ⟨[.note (.didOpen u t), .ask u], 1, [], [.read 0 u], [], [], [], false⟩ :=
    .tail (.refl _) (.begin rfl rfl (show 0 < 4 by omega) rfl)
  have h2 : Moves (Server.Step ord (· = noFiles)) 2 _
      ⟨[.ask u], 2, [], [.read 0 u, .write 1 u t], [], [], [], false⟩ :=
    .tail h1 (.begin rfl rfl (show 1 < 4 by omega) rfl)
  have h3 : Moves (Server.Step ord (· = noFiles)) 3 _
      ⟨[.ask u], 2, [], [.write 1 u t], [(0, u)], [], [], false⟩ := .tail h2 (.read rfl rfl)
  have h4 : Moves (Server.Step ord (· = noFiles)) 4 _
      ⟨[], 3, [], [.write 1 u t, .read 2 u], [(0, u)], [], [], false⟩ :=
    .tail h3 (.begin rfl rfl (show 2 < 4 by omega) rfl)
  have h5 : Moves (Server.Step ord (· = noFiles)) 5 _
      ⟨[], 3, [], [.write 1 u t, .read 2 u], [], [], [(0, .notSynced)], false⟩ :=
    .tail h4 (.answer (a := []) (b := []) (n := 0) noFiles .notSynced rfl rfl rfl rfl)
  have h6 : Moves (Server.Step ord (· = noFiles)) 6 _
      ⟨[], 3, [], [.read 2 u], [], [(u, t)], [(0, .notSynced)], false⟩ := .tail h5 (.write rfl rfl rfl)
  have h7 : Moves (Server.Step ord (· = noFiles)) 7 _
      ⟨[], 3, [], [], [(2, u)], [(u, t)], [(0, .notSynced)], false⟩ := .tail h6 (.read rfl rfl)
  exact .tail h7 (.answer (a := []) (b := []) (n := n) noFiles x rfl rfl rfl h)

omit [Env] in
/-- Instance of C57 and C58: a request before and one after a document is opened, both waiting with it for the lock. -/
example : ∃ (u : DocUrl) (t : Bytes) (s : Server DocUrl),
    let msgs : List (Msg DocUrl) := [.ask u, .note (.didOpen u t), .ask u]
    Moves (@Server.Step Env.plain HashOrd.id (· = noFiles)) 8 (Server.init msgs) s ∧
    Stuck (@Server.Step Env.plain HashOrd.id (· = noFiles)) s ∧ (2, .report []) ∈ s.answers ∧
    (∀ u, ¬ ReadsDisk u msgs) ∧ OneChange (notes (msgs.take 2)) ∧ Latest (notes (msgs.take 2)) u t ∧
    (∀ m ∈ msgs, ∀ u t, Brings u t m → Ended t) ∧ (∀ fs, fs = noFiles → ∀ p t, fs.read p = some t → Ended t) ∧
    ∀ (i : Nat) (u : DocUrl) (fs : FileSys) (t : Bytes) (p : Panic), msgs[i]? = some (.ask u) → fs = noFiles →
      Origin (· = noFiles) (msgs.take i) u t →
      ¬ @AnswersFs Env.plain HashOrd.id (Store.run [] [.didOpen u t]) fs u (.panic p) := by
  have hd : @diagnosticFs Env.plain HashOrd.id 60
      [(⟨none, b!"/d.hddl", []⟩, b!"(define (domain d)\n(:task t :parameters ()))\n")] noFiles ⟨none, b!"/d.hddl", []⟩ =
    .ok (.report []) := by decide +kernel
  refine ⟨_, _, _, @mixed_run Env.plain _ _ _ _ 60 hd, ?_, ?_, ?_, ?_, ?_, ?_, ?_, ?_⟩
  · intro s' h; cases h <;> simp_all
  · simp
  · rintro u ⟨d, h⟩; simp at h
  · intro u ts h; simp [notes] at h
  · exact ⟨[], [], rfl, by simp⟩
  · intro m hm u t hb
    simp only [List.mem_cons, List.not_mem_nil, or_false] at hm
    rcases hm with rfl | rfl | rfl <;> rcases hb with hb | ⟨_, hb⟩ | ⟨_, hb⟩ <;> cases hb
    exact .inr ⟨10, rfl, by decide⟩
  · rintro fs rfl p t h; cases h
  · rintro i u fs t p hi rfl ho ha
    rcases ho with ⟨m, hm, hb⟩ | ⟨_, fs, rfl, h⟩
    · replace hm := List.mem_of_mem_take hm
      simp only [List.mem_cons, List.not_mem_nil, or_false] at hm
      rcases hm with rfl | rfl | rfl <;> rcases hb with hb | ⟨_, hb⟩ | ⟨_, hb⟩ <;> cases hb
      have := @AnswersFs.det Env.plain _ _ _ _ _ _ ha (@answersFs_of_run Env.plain _ _ _ _ 60 _ (by simp) hd)
      cases this
    · cases h

/-- C58 does not hold if a document has a definition twice: the request panics, and no message that follows is ever
handled, whichever document it is about. -/
theorem C58_refuted {e : PErr} {doc : Bytes} (hc : classify doc = .ok .domain) (h : Returns ord doc none (.err e))
    (hd : Duplicate e) {u : DocUrl} (hu : IsFile u) (hw : ∃ fs, world fs) (ms : List (Msg DocUrl)) :
    ∃ k s, Moves (Server.Step ord world) k (Server.init (.note (.didOpen u doc) :: .ask u :: ms)) s ∧
      s.inbox = ms ∧ s.answers = [] ∧ Stuck (Server.Step ord world) s := by
  obtain ⟨fs, hw⟩ := hw
  have h1 : Moves (Server.Step ord world) 1 (Server.init (.note (.didOpen u doc) :: .ask u :: ms))
      ⟨.ask u :: ms, 1, [], [.write 0 u doc], [], [], [], false⟩ :=
    .tail (.refl _) (.begin rfl rfl (show 0 < 4 by omega) rfl)
  have h2 : Moves (Server.Step ord world) 2 _ ⟨.ask u :: ms, 1, [], [], [], [(u, doc)], [], false⟩ :=
    .tail h1 (.write rfl rfl rfl)
  have h3 : Moves (Server.Step ord world) 3 _ ⟨ms, 2, [], [.read 1 u], [], [(u, doc)], [], false⟩ :=
    .tail h2 (.begin rfl rfl (show 0 < 4 by omega) rfl)
  have h4 : Moves (Server.Step ord world) 4 _ ⟨ms, 2, [], [], [(1, u)], [(u, doc)], [], false⟩ :=
    .tail h3 (.read rfl rfl)
  have hg : Store.get [(u, doc)] u = some doc := by simp [Store.get]
  obtain ⟨N, hN⟩ := C42_refuted (s := [(u, doc)]) (folder := []) (u := u) hg hc h hd
  have hx : diagnosticFs ord N [(u, doc)] fs u = .panic .dummyUrl := by
    rw [C70_other (folder := []), hN N (Nat.le_refl _)]
    intro doc' hg'
    rw [hg] at hg'
    cases hg'
    exact ⟨hu, by rw [hc]; simp⟩
  have h5 : Moves (Server.Step ord world) 5 _ ⟨ms, 2, [], [], [(1, u)], [(u, doc)], [], true⟩ :=
    .tail h4 (.crash (a := []) (b := []) fs .dummyUrl rfl rfl hw hx)
  refine ⟨5, _, h5, rfl, rfl, fun t ht => ?_⟩
  cases ht <;> contradiction

/-- C58 does not hold if a document is saved without its text and the file cannot be read: no message that follows is
ever handled.  The file that is read is that of `u.path`, which is not that of the document if it has escapes
(`C70_save_refuted`). -/
theorem C58_refuted_save {u : DocUrl} {fs : FileSys} (hw : world fs) (hf : fs.read u.path = none) (d : Bytes)
    (ms : List (Msg DocUrl)) :
    ∃ k s, Moves (Server.Step ord world) k (Server.init (.note (.didSave u none d) :: ms)) s ∧
      s.inbox = ms ∧ s.answers = [] ∧ Stuck (Server.Step ord world) s := by
  have h1 : Moves (Server.Step ord world) 1 (Server.init (.note (.didSave u none d) :: ms))
      ⟨ms, 1, [(0, u)], [], [], [], [], false⟩ := .tail (.refl _) (.begin rfl rfl (show 0 < 4 by omega) rfl)
  have h2 : Moves (Server.Step ord world) 2 _ ⟨ms, 1, [(0, u)], [], [], [], [], true⟩ :=
    .tail h1 (.diskFail (a := []) (b := []) fs rfl rfl hw hf)
  refine ⟨2, _, h2, rfl, rfl, fun t ht => ?_⟩
  cases ht <;> contradiction

/-- Instance: a domain with a predicate that is defined twice. -/
example : @classify Env.plain b!"(define (domain d)\n(:predicates (p)\n (q)\n (p ?x)))\n" = .ok .domain ∧
    @Returns Env.plain HashOrd.id b!"(define (domain d)\n(:predicates (p)\n (q)\n (p ?x)))\n" none
      (.err (.semantic (.dupPredicate ⟨b!"p", 2, 4⟩))) ∧ Duplicate (.semantic (.dupPredicate ⟨b!"p", 2, 4⟩)) :=
  ⟨by decide +kernel, @returns_run Env.plain _ _ _ 40 _ (by decide +kernel) (by simp), trivial⟩

/-- Where a later text and a later request are while request `i` does not end. -/
def Behind (i j k : Nat) (s : Server DocUrl) : Prop :=
  s.started ≤ k ∨ ∃ a b w t, s.queue = a ++ .write k w t :: b ∧ (i ∈ asks a ∨ i ∈ s.readers.map (·.1)) ∧
    j ∉ asks a ∧ j ∉ s.readers.map (·.1) ∧ j ∉ s.answers.map (·.1)

theorem Behind.step {i j k : Nat} {s s' : Server DocUrl} (hij : i < k) (hjk : k < j) {u w : DocUrl} {t : Bytes} {m : Msg DocUrl}
    (hi : msgs[i]? = some (.ask u)) (hk : msgs[k]? = some m) (hm : Brings w t m)
    (hinv : Inv ord world msgs s) (hinv' : Inv ord world msgs s')
    (hans : ∀ s, Inv ord world msgs s → i ∉ s.answers.map (·.1)) (h : Behind i j k s)
    (hst : Server.Step ord world s s') : Behind i j k s' := by
  cases hst with
  | @start m' ms hd hm' ha =>
    rcases h with h | ⟨a, b, w', t', hq, h1, h2, h3, h4⟩
    · rcases Nat.lt_or_eq_of_le h with h | h
      · exact .inl h
      · obtain ⟨hget, _⟩ := hinv.next hm'
        rw [h, hk] at hget
        cases hget
        have hia : i ∈ s.asked := (hinv.asked i).mpr ⟨by omega, u, hi⟩
        have hja : j ∉ s.asked := fun hj => by have := ((hinv.asked j).mp hj).1; omega
        simp only [Server.asked, List.mem_append, not_or] at hia hja
        refine .inr ⟨s.queue, [], w, t, ?_, ?_, hja.1.1, ?_, ?_⟩
        · rcases hm with rfl | ⟨d, rfl⟩ | ⟨ts, rfl⟩ <;> (rw [← h]; rfl)
        · rcases hm with rfl | ⟨d, rfl⟩ | ⟨ts, rfl⟩ <;>
            exact hia.resolve_right (hans s hinv)
        · rcases hm with rfl | ⟨d, rfl⟩ | ⟨ts, rfl⟩ <;> exact hja.1.2
        · rcases hm with rfl | ⟨d, rfl⟩ | ⟨ts, rfl⟩ <;> exact hja.2
    · have : ∃ q, (s.start m').queue = s.queue ++ q ∧ (s.start m').readers = s.readers ∧
          (s.start m').answers = s.answers := by
        rcases m' with (⟨u, t⟩ | ⟨u, _ | t, d⟩ | ⟨u, _ | ⟨t, ts⟩⟩) | u <;>
          first | exact ⟨[], (List.append_nil _).symm, rfl, rfl⟩ | exact ⟨[_], rfl, rfl, rfl⟩
      obtain ⟨q, hq1, hq2, hq3⟩ := this
      refine .inr ⟨a, b ++ q, w', t', ?_, ?_, h2, ?_, ?_⟩
      · show (s.start m').queue = _
        rw [hq1, hq]; simp
      · show _ ∨ i ∈ ((s.start m').readers).map _
        rw [hq2]; exact h1
      · show j ∉ ((s.start m').readers).map _
        rw [hq2]; exact h3
      · show j ∉ ((s.start m').answers).map _
        rw [hq3]; exact h4
  | @diskRead a' b' i' u' fs text hd hr =>
    rcases h with h | ⟨a, b, w', t', hq, h1, h2, h3, h4⟩
    · exact .inl h
    · refine .inr ⟨a, b ++ [.write i' u' text], w', t', ?_, h1, h2, h3, h4⟩
      rw [show (_ : Server DocUrl).queue = s.queue ++ [.write i' u' text] from rfl, hq]; simp
  | diskFail fs hd hr => exact h
  | crash fs p hd hr hf hx => exact h
  | @write q i' u' t'' hd hq' hr =>
    rcases h with h | ⟨a, b, w', t', hq, h1, h2, h3, h4⟩
    · exact .inl h
    · rw [hq'] at hq
      cases a with
      | nil => rw [hr] at h1; rcases h1 with h1 | h1 <;> cases h1
      | cons x a =>
        cases hq
        exact .inr ⟨a, b, w', t', rfl, h1, h2, h3, h4⟩
  | @read q i' u' hd hq' =>
    rcases h with h | ⟨a, b, w', t', hq, h1, h2, h3, h4⟩
    · exact .inl h
    · rw [hq'] at hq
      cases a with
      | nil => cases hq
      | cons x a =>
        cases hq
        simp only [asks, List.mem_cons, not_or] at h1 h2
        refine .inr ⟨a, b, w', t', rfl, ?_, h2.2, ?_, h4⟩
        · simp only [List.map_append, List.map_cons, List.map_nil, List.mem_append, List.mem_singleton]
          tauto
        · simp only [List.map_append, List.map_cons, List.map_nil, List.mem_append, List.mem_singleton, not_or]
          exact ⟨h3, h2.1⟩
  | @answer a' b' i' u' n fs x hd hr hf hx =>
    rcases h with h | ⟨a, b, w', t', hq, h1, h2, h3, h4⟩
    · exact .inl h
    · have hne : i ≠ i' := by
        rintro rfl
        exact hans _ hinv' (by simp)
      rw [hr] at h1 h3
      simp only [List.map_append, List.map_cons, List.mem_append, List.mem_cons, not_or] at h1 h3
      refine .inr ⟨a, b, w', t', hq, ?_, h2, ?_, ?_⟩
      · simp only [List.map_append, List.mem_append]
        tauto
      · simp only [List.map_append, List.mem_append, not_or]
        exact ⟨h3.1, h3.2.2⟩
      · simp only [List.map_append, List.map_cons, List.map_nil, List.mem_append, List.mem_singleton, not_or]
        exact ⟨h4, h3.2.1⟩

/-- C58 does not hold if an analysis does not end: the request keeps the lock, so a text that comes later is never taken
over, and no request after that text is ever answered, whichever document it is about. -/
theorem C58_blocked {i j k : Nat} (hij : i < k) (hjk : k < j) {u w : DocUrl} {t : Bytes} {m : Msg DocUrl}
    (hi : msgs[i]? = some (.ask u)) (hk : msgs[k]? = some m) (hm : Brings w t m)
    (hsave : ¬ ReadsDisk u (msgs.take i))
    (hhang : ∀ fs, world fs → AnswersFs ord (Store.run [] (notes (msgs.take i))) fs u .timeout)
    {l : Nat} {s : Server DocUrl} (h : Moves (Server.Step ord world) l (Server.init msgs) s) : ∀ x, (j, x) ∉ s.answers := by
  have hans : ∀ s, Inv ord world msgs s → i ∉ s.answers.map (·.1) := by
    intro s hs hi'
    obtain ⟨⟨i', x⟩, hx, rfl⟩ := List.mem_map.mp hi'
    obtain ⟨u', hu', h1, _⟩ := hs.answers i' x hx
    rw [hi] at hu'
    cases hu'
    obtain ⟨fs, hf, h2⟩ := h1 hsave
    cases h2.det (hhang fs hf)
  have hb : Behind i j k s := by
    generalize h0 : Server.init msgs = s0 at h
    induction h with
    | refl => subst h0; exact .inl (Nat.zero_le _)
    | tail h hst ih =>
      subst h0
      have hinv := Inv.steps h
      exact (ih rfl).step hij hjk hi hk hm hinv (hinv.step hst) hans hst
  intro x hx
  have hx' : j ∈ s.answers.map (·.1) := List.mem_map.mpr ⟨_, hx, rfl⟩
  rcases hb with hb | ⟨a, b, w', t', _, _, _, _, h4⟩
  · have := (((Inv.steps h).asked j).mp (by simp only [Server.asked, List.mem_append]; exact .inr hx')).1
    omega
  · exact h4 hx'

/-- Instance: a domain that is cut off while it is typed.  After one request for it, the server answers no request that
follows the next change. -/
example (ms : List (Msg DocUrl)) (u v : DocUrl) (hu : IsFile u) (t : Bytes) {l : Nat} {s : Server DocUrl} (h : Moves (Server.Step ord world) l
    (Server.init (.note (.didOpen u b!"(define (domain d) (:types a") :: .ask u :: .note (.didChange u [t]) :: .ask v :: ms)) s) :
    ∀ x, (3, x) ∉ s.answers := by
  refine C58_blocked (i := 1) (k := 2) (j := 3) (by omega) (by omega) rfl rfl (.inr (.inr ⟨[], rfl⟩)) ?_ ?_ h
  · rintro ⟨d, h⟩; simp at h
  · intro fs _
    refine ⟨0, fun n _ => ?_⟩
    have h1 : classify b!"(define (domain d) (:types a" = .ok .domain := rfl
    have h2 : (Store.run [] (notes (List.take 1 (.note (.didOpen u b!"(define (domain d) (:types a") :: .ask u ::
        .note (.didChange u [t]) :: .ask v :: ms)))).get u = some b!"(define (domain d) (:types a" := by
      simp [notes, Store.run, Store.handle, Store.get_sync]
    rw [C70_other (folder := [])]
    · simp only [diagnostic, h2, h1, R.bind, diagnoseDomain, C06_refuted n]
    · intro doc hg
      rw [h2] at hg
      cases hg
      exact ⟨hu, by rw [h1]; simp⟩

end Verif
