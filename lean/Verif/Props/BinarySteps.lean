/-
C120: the loops of the kernels of two operands, and the specification of broadcasting.
-/
import Verif.Model.BinaryRun
import Verif.Props.UnaryCall

namespace Dynd

/-! ### Specification: combining two nested lists -/

/-- the elements of a list -/
def NestVal.items {α : Type} : NestVal α → List (NestVal α)
  | .list xs => xs
  | .elem _ => []

/-- The common size: equal sizes, or one of them 1. -/
def agreedSize (a b : Nat) : Option Nat :=
  if a = b then some a else if a = 1 then some b else if b = 1 then some a else none

/-- a list of one element repeated to size `n` -/
def stretch {A : Type} (n : Nat) (xs : List A) : List A :=
  match xs with
  | [x] => List.replicate n x
  | _ => xs

/-- a function of two arguments along two lists; `none` as soon as one of the results is -/
def zipAll {A B C : Type} (f : A → B → Option C) : List A → List B → Option (List C)
  | x :: xs, y :: ys => (f x y).bind fun r => (zipAll f xs ys).map fun rs => r :: rs
  | _, _ => some []

/-- Broadcasting: `k` dimensions are left, the operands have `d0` and `d1` dimensions.  An operand with fewer
    dimensions is taken as a list of one; sizes must be equal or 1.  `none`: the sizes do not fit. -/
def combine {α β γ : Type} (op : α → β → γ) : Nat → Nat → Nat → NestVal α → NestVal β → Option (NestVal γ)
  | 0, _, _, .elem x, .elem y => some (.elem (op x y))
  | 0, _, _, _, _ => none
  | k + 1, d0, d1, u, v =>
    let xs := if d0 < k + 1 then [u] else u.items
    let ys := if d1 < k + 1 then [v] else v.items
    (agreedSize xs.length ys.length).bind fun n =>
      (zipAll (combine op k (min d0 k) (min d1 k)) (stretch n xs) (stretch n ys)).map .list

/-! ### Running along one dimension -/

/-- the outcome of running over an element: the value, or the error for sizes that do not fit -/
def Outcome {γ : Type} (dm : List UMeta) (w : Nat) (ov : Option (NestVal γ)) (d : Int) (m : UDst γ) (r : Res (UDst γ)) : Prop :=
  match ov with
  | some v => ∃ m', r = .ok m' ∧ RunsTo dm w v d m m'
  | none => r = .throw .broadcast

/-- the same for `n` elements -/
def LOutcome {γ : Type} (dm : List UMeta) (w : Nat) (ds : Int) (n : Nat) (ov : Option (List (NestVal γ))) (d : Int)
    (m : UDst γ) (r : Res (UDst γ)) : Prop :=
  match ov with
  | none => r = .throw .broadcast
  | some rs => ∃ m', r = .ok m' ∧ m.next ≤ m'.next ∧
      (∀ a, m'.next ≤ a → m'.recs a = none) ∧
      (∀ a, a < m.next → ¬ (d ≤ a ∧ a < d + (n * w : Nat)) → m'.recs a = m.recs a ∧ m'.cells a = m.cells a) ∧
      (∀ (cells : Int → Option γ) (recs : Int → Option (Int × Nat)),
        (∀ a, (d ≤ a ∧ a < d + (n * w : Nat)) ∨ (m.next ≤ a ∧ a < m'.next) → recs a = m'.recs a ∧ cells a = m'.cells a) →
        viewList (viewArr cells recs dm) ds n d = some rs)

/-- The loop over `n` elements. -/
theorem loop2_runs {A B γ : Type} {view0 : Int → Option A} {view1 : Int → Option B} {f : A → B → Option (NestVal γ)}
    {dm : List UMeta} {w : Nat} {body : Int → Int → Int → UDst γ → Res (UDst γ)}
    (hb : ∀ (d s0 s1 : Int) (m : UDst γ) u v, view0 s0 = some u → view1 s1 = some v → Room w d m →
      Outcome dm w (f u v) d m (body d s0 s1 m)) :
    ∀ (n : Nat) (ds t0 t1 : Int), (ds = w ∨ (ds = 0 ∧ n ≤ 1)) → ∀ (d s0 s1 : Int) (m : UDst γ) us vs,
      viewList view0 t0 n s0 = some us → viewList view1 t1 n s1 = some vs → Room (n * w) d m →
      LOutcome dm w ds n (zipAll f us vs) d m (bLoop body n ds t0 t1 d s0 s1 m)
  | 0, ds, t0, t1, hds, d, s0, s1, m, us, vs, hu, hv, hr => by
    simp only [viewList, Option.some.injEq] at hu hv
    subst hu; subst hv
    exact ⟨m, rfl, Int.le_refl _, hr.2.2, fun a _ _ => ⟨rfl, rfl⟩, fun cells recs _ => rfl⟩
  | n + 1, ds, t0, t1, hds, d, s0, s1, m, us, vs, hu, hv, hr => by
    simp only [viewList, Option.bind_eq_some_iff, Option.map_eq_some_iff] at hu hv
    obtain ⟨x, hx, xs, hxs, rfl⟩ := hu
    obtain ⟨y, hy, ys, hys, rfl⟩ := hv
    obtain ⟨hr1, hr2, hr3⟩ := hr
    have ew : ((n + 1) * w : Nat) = w + n * w := by rw [Nat.succ_mul]; omega
    rw [ew] at hr1 hr2
    have r1 : Room w d m := ⟨by omega, fun a h1 h2 => hr2 a h1 (by omega), hr3⟩
    have h1 := hb d s0 s1 m x y hx hy r1
    cases e : f x y with
    | none =>
      rw [e] at h1
      simp only [Outcome] at h1
      simp only [zipAll, e, Option.bind_none, LOutcome, bLoop, h1, Res.bind_throw]
    | some r =>
      rw [e] at h1
      obtain ⟨m1, e1, p1, p2, p3, p4⟩ := h1
      generalize hk : n * w = k at *
      have hds' : ds = w ∨ (ds = 0 ∧ n ≤ 1) := by
        rcases hds with h | ⟨h, h'⟩ <;> [exact .inl h; exact .inr ⟨h, by omega⟩]
      have r2 : Room (n * w) (d + ds) m1 := by
        rw [hk]
        rcases hds with h | ⟨h, h'⟩
        · refine ⟨by omega, fun a h1 h2 => ?_, p2⟩
          rw [(p3 a (by omega) (by omega)).1]
          exact hr2 a (by omega) (by omega)
        · have : k = 0 := by
            have : n = 0 := by omega
            rw [this] at hk; simpa using hk.symm
          exact ⟨by omega, fun a h1 h2 => by omega, p2⟩
      have h2 := loop2_runs hb n ds t0 t1 hds' (d + ds) (s0 + t0) (s1 + t1) m1 xs ys hxs hys r2
      have el : bLoop body (n + 1) ds t0 t1 d s0 s1 m = bLoop body n ds t0 t1 (d + ds) (s0 + t0) (s1 + t1) m1 := by
        simp only [bLoop]
        rw [e1, Res.bind_ok]
      rw [el]
      simp only [zipAll, e, Option.bind_some]
      cases e' : zipAll f xs ys with
      | none =>
        rw [e'] at h2
        exact h2
      | some rs =>
        rw [e'] at h2
        obtain ⟨m2, e2, q1, q2, q3, q4⟩ := h2
        rw [hk] at q3 q4
        have hk0 : ds ≠ w → k = 0 := by
          intro h
          rcases hds with h' | ⟨_, h'⟩
          · exact absurd h' h
          · have : n = 0 := by omega
            rw [this] at hk; simpa using hk.symm
        refine ⟨m2, e2, by omega, q2, ?_, ?_⟩
        · intro a h1 h2
          rw [ew] at h2
          by_cases hd : ds = w
          · obtain ⟨a1, a2⟩ := q3 a (by omega) (by omega)
            obtain ⟨b1, b2⟩ := p3 a h1 (by omega)
            exact ⟨a1.trans b1, a2.trans b2⟩
          · have := hk0 hd
            obtain ⟨a1, a2⟩ := q3 a (by omega) (by omega)
            obtain ⟨b1, b2⟩ := p3 a h1 (by omega)
            exact ⟨a1.trans b1, a2.trans b2⟩
        · intro cells recs hag
          rw [ew] at hag
          simp only [viewList]
          have v1 : viewArr cells recs dm d = some r := by
            apply p4
            intro a ha
            have hq : m2.recs a = m1.recs a ∧ m2.cells a = m1.cells a := by
              by_cases hd : ds = w
              · exact q3 a (by omega) (by omega)
              · have := hk0 hd
                exact q3 a (by omega) (by omega)
            obtain ⟨a1, a2⟩ := hag a (by omega)
            exact ⟨a1.trans hq.1, a2.trans hq.2⟩
          have v2 : viewList (viewArr cells recs dm) ds n (d + ds) = some rs := by
            apply q4
            intro a ha
            apply hag a
            by_cases hd : ds = w
            · omega
            · have := hk0 hd
              omega
          rw [v1, v2]; rfl

/-! ### The operands -/

theorem viewList_length {A : Type} {view : Int → Option A} {st : Int} : ∀ {n : Nat} {a : Int} {xs : List A},
    viewList view st n a = some xs → xs.length = n
  | 0, _, xs, h => by simp only [viewList, Option.some.injEq] at h; subst h; rfl
  | n + 1, a, xs, h => by
    simp only [viewList, Option.bind_eq_some_iff, Option.map_eq_some_iff] at h
    obtain ⟨x, _, ys, h2, rfl⟩ := h
    simp [viewList_length h2]

theorem viewList_zero {A : Type} {view : Int → Option A} {a : Int} {x : A} (h : view a = some x) :
    ∀ n, viewList view 0 n a = some (List.replicate n x)
  | 0 => rfl
  | n + 1 => by simp [viewList, h, viewList_zero h n, List.replicate_succ]

/-- the operand opened along a dimension: its elements are `xs` -/
def Opened {A : Type} (view : Int → Option A) (x : VSrc) (xs : List A) : Prop :=
  x.size = xs.length ∧ viewList view x.stride x.size x.base = some xs

/-- the stride used along a dimension of the result -/
def useStride (x : VSrc) : Int := if x.size = 1 then 0 else x.stride

theorem opened_stretch {A : Type} {view : Int → Option A} {x : VSrc} {xs : List A} (h : Opened view x xs) {n : Nat}
    (hn : x.size = 1 ∨ x.size = n) : viewList view (useStride x) n x.base = some (stretch n xs) := by
  obtain ⟨h1, h2⟩ := h
  unfold useStride
  by_cases e : x.size = 1
  · rw [if_pos e]
    rw [e] at h1 h2
    match xs, h1 with
    | [y], _ =>
      simp only [viewList, Option.bind_eq_some_iff, Option.map_some, Option.some.injEq, List.cons.injEq, and_true] at h2
      obtain ⟨z, hz, rfl⟩ := h2
      exact viewList_zero hz n
  · rw [if_neg e]
    have hn : x.size = n := by rcases hn with h | h <;> [exact absurd h e; exact h]
    rw [← hn, h2]
    congr 1
    match xs, h1 with
    | [], _ => rfl
    | [y], h1 => exact absurd h1 e
    | _ :: _ :: _, _ => rfl

theorem join2 (x0 x1 : VSrc) : joinVar 1 [x0, x1] =
    match agreedSize x0.size x1.size with
    | some n => .ok (n, [useStride x0, useStride x1])
    | none => .throw .broadcast := by
  unfold agreedSize useStride
  by_cases e0 : x0.size = 1
  · by_cases e1 : x1.size = 1 <;> cases h0 : x0.isVar <;> cases h1 : x1.isVar <;> simp [joinVar, e0, e1, h0, h1]
    all_goals
      rw [if_neg (fun h => e1 h.symm)]
  · by_cases e1 : x1.size = 1
    · cases h0 : x0.isVar <;> cases h1 : x1.isVar <;> simp [joinVar, e0, e1, h0, h1]
    · by_cases e : x1.size = x0.size <;> cases h0 : x0.isVar <;> cases h1 : x1.isVar <;>
        simp [joinVar, e0, e1, h0, h1, e, Ne.symm (a := x1.size) (b := x0.size)]
      all_goals
        rw [if_neg (fun h => e h.symm)]

theorem common_sizes {a b n : Nat} (h : agreedSize a b = some n) : (a = 1 ∨ a = n) ∧ (b = 1 ∨ b = n) := by
  unfold agreedSize at h
  by_cases e : a = b
  · rw [if_pos e] at h; cases h; exact ⟨.inr rfl, .inr e.symm⟩
  · rw [if_neg e] at h
    by_cases e1 : a = 1
    · rw [if_pos e1] at h; cases h; exact ⟨.inl e1, .inr rfl⟩
    · rw [if_neg e1] at h
      by_cases e2 : b = 1
      · rw [if_pos e2] at h; cases h; exact ⟨.inr rfl, .inl e2⟩
      · rw [if_neg e2] at h; cases h

end Dynd
