import Verif.Proofs.Outcome
import Verif.Proofs.Fuel
import Verif.Model.Api

/-! More budget never changes the outcome of `verify`, `get_metadata` and `to_json`, except that a timeout may become
another outcome. -/

namespace Verif

/-- `x` is a timeout, or the same outcome as `y`. -/
def R.Le {α} (x y : R α) : Prop := x = .timeout ∨ x = y

theorem R.Le.refl {α} (x : R α) : R.Le x x := .inr rfl

theorem R.Le.timeout {α} (x : R α) : R.Le .timeout x := .inl rfl

theorem R.Le.eq {α} {x y : R α} (h : R.Le x y) (hx : x ≠ .timeout) : y = x := by
  rcases h with h | h
  · exact absurd h hx
  · exact h.symm

theorem R.Le.bind {α β} {x y : R α} {f g : α → R β} (h : R.Le x y) (hf : ∀ a, R.Le (f a) (g a)) :
    R.Le (x.bind f) (y.bind g) := by
  rcases h with rfl | rfl
  · exact .inl rfl
  · cases x with
    | ok a => exact hf a
    | err e => exact .inr rfl
    | panic p => exact .inr rfl
    | timeout => exact .inl rfl

theorem TDG.bfs_le (g : TDG) : ∀ {n m : Nat}, n ≤ m → ∀ q v r, R.Le (g.bfs n q v r) (g.bfs m q v r)
  | _, _, _, [], _, _ => by simp only [TDG.bfs]; exact .refl _
  | 0, _, _, _ :: _, _, _ => by simp only [TDG.bfs]; exact .timeout _
  | n + 1, m + 1, h, t :: q, v, r => by
    simp only [TDG.bfs]
    split <;> exact TDG.bfs_le g (by omega) _ _ _

theorem TDG.nullLoop_le (g : TDG) : ∀ {n m : Nat}, n ≤ m → ∀ s, R.Le (g.nullLoop n s) (g.nullLoop m s)
  | 0, 0, _, _ => .refl _
  | 0, m + 1, _, s => by
    simp only [TDG.nullLoop]
    split
    · exact .timeout _
    · exact .refl _
  | n + 1, m + 1, h, s => by
    simp only [TDG.nullLoop]
    split
    · exact TDG.nullLoop_le g (by omega) _
    · exact .refl _

theorem TDG.nullables_le (g : TDG) {n m : Nat} (h : n ≤ m) : R.Le (g.nullables n) (g.nullables m) := by
  unfold TDG.nullables
  exact .bind (g.nullLoop_le h _) fun _ => .refl _

theorem TDG.reachable_le (g : TDG) {n m : Nat} (h : n ≤ m) (x : Name) : R.Le (g.reachable n x) (g.reachable m x) := by
  unfold TDG.reachable
  split
  · exact .refl _
  · split
    · exact .refl _
    · exact .bind (g.bfs_le h _ _ _) fun _ => .bind (g.nullables_le h) fun _ => .refl _

theorem collectWarnings_le (g : TDG) {n m : Nat} (h : n ≤ m) :
    ∀ ts, R.Le (collectWarnings g n ts) (collectWarnings g m ts)
  | [] => .refl _
  | t :: ts => by
    simp only [collectWarnings]
    exact .bind (g.reachable_le h _) fun _ => .bind (collectWarnings_le g h ts) fun _ => .refl _

theorem verifyDomain_le (ord : HashOrd) (d : DomainAST) {n m : Nat} (h : n ≤ m) :
    R.Le (verifyDomain ord n d) (verifyDomain ord m d) := by
  unfold verifyDomain
  exact .bind (.refl _) fun _ => .bind (.refl _) fun g => .bind (collectWarnings_le g h _) fun _ => .refl _

theorem prefixLoop_le (os : List (Name × Name)) (occ : List Name) :
    ∀ {n m : Nat}, n ≤ m → ∀ st, R.Le (prefixLoop os occ n st) (prefixLoop os occ m st)
  | _, _, _, [] => by simp only [prefixLoop]; exact .refl _
  | 0, _, _, _ :: _ => by simp only [prefixLoop]; exact .timeout _
  | n + 1, m + 1, h, t :: st => by
    simp only [prefixLoop]
    exact prefixLoop_le os occ (by omega) _

theorem suffixLoop_le (ord : HashOrd) (site : Site) (os : List (Name × Name)) :
    ∀ {n m : Nat}, n ≤ m → ∀ st acc, R.Le (suffixLoop ord site os n st acc) (suffixLoop ord site os m st acc)
  | _, _, _, [], _ => by simp only [suffixLoop]; exact .refl _
  | 0, _, _, _ :: _, _ => by simp only [suffixLoop]; exact .timeout _
  | n + 1, m + 1, h, t :: st, acc => by
    simp only [suffixLoop]
    exact suffixLoop_le ord site os (by omega) _ _

theorem TDG.getPrefix_le (g : TDG) (ord : HashOrd) {n m : Nat} (h : n ≤ m) (a b : Nat) :
    R.Le (g.getPrefix ord n a b) (g.getPrefix ord m a b) := by
  unfold TDG.getPrefix
  simp only
  split
  · exact .refl _
  · split
    · exact .refl _
    · exact .bind (prefixLoop_le _ _ h _) fun _ => .refl _

theorem TDG.getSuffix_le (g : TDG) (ord : HashOrd) {n m : Nat} (h : n ≤ m) (a b : Nat) :
    R.Le (g.getSuffix ord n a b) (g.getSuffix ord m a b) := by
  unfold TDG.getSuffix
  simp only
  split
  · exact .refl _
  · split
    · exact .refl _
    · exact .bind (suffixLoop_le _ _ _ h _ _) fun _ => .refl _

theorem TDG.cycleInfo_le (g : TDG) (ord : HashOrd) {n m : Nat} (h : n ≤ m) (nulls : List Nat) (x : Nat) :
    ∀ c, R.Le (g.cycleInfo ord n nulls x c) (g.cycleInfo ord m nulls x c)
  | [] => .refl _
  | [_] => .refl _
  | (_, k) :: (t, k') :: rest => by
    simp only [TDG.cycleInfo]
    exact .bind (g.getPrefix_le ord h _ _) fun _ => .bind (g.getSuffix_le ord h _ _) fun _ =>
      .bind (TDG.cycleInfo_le g ord h nulls x _) fun _ => .refl _

theorem TDG.expand_le (g : TDG) (ord : HashOrd) {n m : Nat} (h : n ≤ m) (nulls : List Nat) (path : List (Nat × Nat))
    (k : Nat) : ∀ xs st rt, R.Le (g.expand ord n nulls path k xs st rt) (g.expand ord m nulls path k xs st rt)
  | [], _, _ => .refl _
  | x :: xs, st, rt => by
    simp only [TDG.expand]
    split
    · exact .bind (g.cycleInfo_le ord h nulls _ _) fun _ => TDG.expand_le g ord h nulls path k xs _ _
    · exact TDG.expand_le g ord h nulls path k xs _ _

theorem TDG.recLoop_le (g : TDG) (ord : HashOrd) {n m : Nat} (h : n ≤ m) (nulls : List Nat) :
    ∀ {a b : Nat}, a ≤ b → ∀ st rt, R.Le (g.recLoop ord n nulls a st rt) (g.recLoop ord m nulls b st rt)
  | _, _, _, [], _ => by simp only [TDG.recLoop]; exact .refl _
  | 0, _, _, _ :: _, _ => by simp only [TDG.recLoop]; exact .timeout _
  | a + 1, b + 1, hab, p :: st, rt => by
    simp only [TDG.recLoop]
    split
    · exact TDG.recLoop_le g ord h nulls (by omega) _ _
    · exact .bind (g.expand_le ord h nulls _ _ _ _ _) fun _ => TDG.recLoop_le g ord h nulls (by omega) _ _

theorem TDG.recursionType_le (g : TDG) (ord : HashOrd) {n m : Nat} (h : n ≤ m) (nulls : List Name) :
    R.Le (g.recursionType ord n nulls) (g.recursionType ord m nulls) := by
  unfold TDG.recursionType
  exact .bind (.refl _) fun _ => g.recLoop_le ord h _ h _ _

variable [Env]

theorem parse_le {n m : Nat} (h : n ≤ m) (file : Bytes) : R.Le (parse n file) (parse m file) := by
  by_cases hn : parse n file = .timeout
  · exact .inl hn
  · exact .inr (parse_fuel h hn).symm

theorem verify_le (ord : HashOrd) {n m : Nat} (h : n ≤ m) (dom : Bytes) (prob : Option Bytes) :
    R.Le (verify ord n dom prob) (verify ord m dom prob) := by
  unfold verify
  refine .bind (parse_le h _) fun a => ?_
  cases a with
  | problem _ => exact .refl _
  | domain d =>
    refine .bind (verifyDomain_le ord d h) fun st => ?_
    cases prob with
    | none => exact .refl _
    | some p => exact .bind (parse_le h _) fun _ => .refl _

theorem getMetadata_le (ord : HashOrd) {n m : Nat} (h : n ≤ m) (dom : Bytes) :
    R.Le (getMetadata ord n dom) (getMetadata ord m dom) := by
  unfold getMetadata
  refine .bind (parse_le h _) fun a => ?_
  cases a with
  | problem _ => exact .refl _
  | domain d =>
    exact .bind (.refl _) fun g => .bind (g.nullables_le h) fun _ => .bind (g.recursionType_le ord h _) fun _ => .refl _

theorem toJson_le (ord : HashOrd) {n m : Nat} (h : n ≤ m) (dom : Bytes) (prob : Option Bytes) :
    R.Le (toJson ord n dom prob) (toJson ord m dom prob) := by
  unfold toJson
  refine .bind (parse_le h _) fun a => ?_
  cases a with
  | problem _ => exact .refl _
  | domain d =>
    cases prob with
    | none => exact .refl _
    | some p => exact .bind (parse_le h _) fun _ => .refl _

end Verif
