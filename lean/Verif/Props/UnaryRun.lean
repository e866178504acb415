/-
C119: running the kernels of a function of one argument over an array of any nesting of fixed and `var` dimensions.
-/
import Verif.Props.UnaryTable

namespace Dynd

/-! ### Specification: the value of an array in memory -/

/-- Nested lists, with scalars at the bottom. -/
inductive NestVal (α : Type) where
  | elem (x : α)
  | list (xs : List (NestVal α))

mutual
/-- a function applied to every scalar -/
def NestVal.map {α β : Type} (f : α → β) : NestVal α → NestVal β
  | .elem x => .elem (f x)
  | .list xs => .list (mapAll f xs)
/-- a function applied to every scalar of a list -/
def mapAll {α β : Type} (f : α → β) : List (NestVal α) → List (NestVal β)
  | [] => []
  | x :: xs => x.map f :: mapAll f xs
end

/-- `n` values, `stride` apart, starting at `a` -/
def viewList {γ : Type} (view : Int → Option γ) (stride : Int) : Nat → Int → Option (List γ)
  | 0, _ => some []
  | n + 1, a => (view a).bind fun x => (viewList view stride n (a + stride)).map fun xs => x :: xs

/-- The value of the array with the given metadata at address `a`: a fixed dimension is `size` values `stride` apart; a
    `var` dimension is a record (begin, size) whose values start at begin + offset; `none`: memory that is not there. -/
def viewArr {α : Type} (cells : Int → Option α) (recs : Int → Option (Int × Nat)) : List UMeta → Int → Option (NestVal α)
  | [], a => (cells a).map .elem
  | .fixed n s :: ms, a => (viewList (viewArr cells recs ms) s n a).map .list
  | .var s o :: ms, a => (recs a).bind fun r => (viewList (viewArr cells recs ms) s r.2 (r.1 + o)).map .list

/-- Metadata for an array with these dimensions; `none` is `var`. -/
inductive MetaFits : List (Option Nat) → List UMeta → Prop
  | nil : MetaFits [] []
  | fixed (n : Nat) (s : Int) {ds ms} : MetaFits ds ms → MetaFits (some n :: ds) (.fixed n s :: ms)
  | var (s o : Int) {ds ms} : MetaFits ds ms → MetaFits (none :: ds) (.var s o :: ms)

/-- the levels that run over the array, all strides used -/
def idealLevels : List UMeta → List UMeta → List ULevel
  | .fixed n d :: dm, .fixed _ s :: sm => .ff n d s :: idealLevels dm sm
  | .var d o :: dm, .var s so :: sm => .vf d o s so :: idealLevels dm sm
  | _, _ => []

/-! ### Running -/

/-- what running over an element does: the value is there, in the element's own bytes and newly allocated memory,
    nothing else is touched -/
def RunsTo {β : Type} (dm : List UMeta) (w : Nat) (v : NestVal β) (d : Int) (m m' : UDst β) : Prop :=
  m.next ≤ m'.next ∧
  (∀ a, m'.next ≤ a → m'.recs a = none) ∧
  (∀ a, a < m.next → ¬ (d ≤ a ∧ a < d + w) → m'.recs a = m.recs a ∧ m'.cells a = m.cells a) ∧
  (∀ (cells : Int → Option β) (recs : Int → Option (Int × Nat)),
    (∀ a, (d ≤ a ∧ a < d + w) ∨ (m.next ≤ a ∧ a < m'.next) → recs a = m'.recs a ∧ cells a = m'.cells a) →
    viewArr cells recs dm d = some v)

/-- the destination memory an element of `w` bytes at `d` is to be written to: below the free memory, no records in it
    nor in the free memory -/
def Room {β : Type} (w : Nat) (d : Int) (m : UDst β) : Prop :=
  d + w ≤ m.next ∧ (∀ a, d ≤ a → a < d + w → m.recs a = none) ∧ (∀ a, m.next ≤ a → m.recs a = none)

/-- The loop over `n` elements. -/
theorem loop_runs {α β : Type} {op : α → β} {src : USrc α} {dm sm : List UMeta} {w : Nat}
    {body : Int → Int → UDst β → Res (UDst β)}
    (hb : ∀ (d s : Int) (m : UDst β) (v : NestVal α), viewArr src.cells src.recs sm s = some v → Room w d m →
      ∃ m', body d s m = .ok m' ∧ RunsTo dm w (v.map op) d m m') :
    ∀ (n : Nat) (ds ss : Int), (ds = w ∨ (ds = 0 ∧ n ≤ 1)) → ∀ (d s : Int) (m : UDst β) (vs : List (NestVal α)),
      viewList (viewArr src.cells src.recs sm) ss n s = some vs → Room (n * w) d m →
      ∃ m', uLoop body n ds ss d s m = .ok m' ∧ m.next ≤ m'.next ∧
        (∀ a, m'.next ≤ a → m'.recs a = none) ∧
        (∀ a, a < m.next → ¬ (d ≤ a ∧ a < d + (n * w : Nat)) → m'.recs a = m.recs a ∧ m'.cells a = m.cells a) ∧
        (∀ (cells : Int → Option β) (recs : Int → Option (Int × Nat)),
          (∀ a, (d ≤ a ∧ a < d + (n * w : Nat)) ∨ (m.next ≤ a ∧ a < m'.next) → recs a = m'.recs a ∧ cells a = m'.cells a) →
          viewList (viewArr cells recs dm) ds n d = some (mapAll op vs))
  | 0, ds, ss, hds, d, s, m, vs, hv, hr => by
    simp only [viewList, Option.some.injEq] at hv
    subst hv
    exact ⟨m, rfl, Int.le_refl _, hr.2.2, fun a _ _ => ⟨rfl, rfl⟩, fun cells recs _ => rfl⟩
  | n + 1, ds, ss, hds, d, s, m, vs, hv, hr => by
    simp only [viewList, Option.bind_eq_some_iff, Option.map_eq_some_iff] at hv
    obtain ⟨x, hx, xs, hxs, rfl⟩ := hv
    obtain ⟨hr1, hr2, hr3⟩ := hr
    have ew : ((n + 1) * w : Nat) = w + n * w := by rw [Nat.succ_mul]; omega
    rw [ew] at hr1 hr2
    generalize hk : n * w = k at *
    have r1 : Room w d m := ⟨by omega, fun a h1 h2 => hr2 a h1 (by omega), hr3⟩
    obtain ⟨m1, e1, p1, p2, p3, p4⟩ := hb d s m x hx r1
    have hds' : ds = w ∨ (ds = 0 ∧ n ≤ 1) := by rcases hds with h | ⟨h, h'⟩ <;> [exact .inl h; exact .inr ⟨h, by omega⟩]
    -- the region of the rest
    have r2 : Room (n * w) (d + ds) m1 := by
      rw [hk]
      rcases hds with h | ⟨h, h'⟩
      · refine ⟨by omega, fun a h1 h2 => ?_, p2⟩
        rw [(p3 a (by omega) (by omega)).1]
        exact hr2 a (by omega) (by omega)
      · have : k = 0 := by
          have : n = 0 := by omega
          rw [this] at hk; simpa using hk.symm
        exact ⟨by omega, fun a h1 h2 => by omega, p2⟩
    obtain ⟨m2, e2, q1, q2, q3, q4⟩ := loop_runs hb n ds ss hds' (d + ds) (s + ss) m1 xs hxs r2
    rw [hk] at q3 q4
    have hz : n = 0 → k = 0 := by intro h; rw [h] at hk; simpa using hk.symm
    refine ⟨m2, ?_, by omega, q2, ?_, ?_⟩
    · simp only [uLoop]
      rw [e1, Res.bind_ok]
      exact e2
    · intro a h1 h2
      rw [ew] at h2
      have hk0 : ds ≠ w → k = 0 := by
        intro h
        rcases hds with h' | ⟨_, h'⟩
        · exact absurd h' h
        · exact hz (by omega)
      by_cases hd : ds = w
      · obtain ⟨a1, a2⟩ := q3 a (by omega) (by omega)
        obtain ⟨b1, b2⟩ := p3 a h1 (by omega)
        exact ⟨a1.trans b1, a2.trans b2⟩
      · have := hk0 hd
        obtain ⟨a1, a2⟩ := q3 a (by omega) (by omega)
        obtain ⟨b1, b2⟩ := p3 a h1 (by omega)
        exact ⟨a1.trans b1, a2.trans b2⟩
    · intro cells recs hag
      rw [ew] at hag
      simp only [viewList, mapAll]
      have hk0 : ds ≠ w → k = 0 := by
        intro h
        rcases hds with h' | ⟨_, h'⟩
        · exact absurd h' h
        · exact hz (by omega)
      have v1 : viewArr cells recs dm d = some (x.map op) := by
        apply p4
        intro a ha
        have hq : m2.recs a = m1.recs a ∧ m2.cells a = m1.cells a := by
          by_cases hd : ds = w
          · exact q3 a (by omega) (by omega)
          · have := hk0 hd
            exact q3 a (by omega) (by omega)
        obtain ⟨a1, a2⟩ := hag a (by omega)
        exact ⟨a1.trans hq.1, a2.trans hq.2⟩
      have v2 : viewList (viewArr cells recs dm) ds n (d + ds) = some (mapAll op xs) := by
        apply q4
        intro a ha
        apply hag a
        by_cases hd : ds = w
        · omega
        · have := hk0 hd
          omega
      rw [v1, v2]; rfl

/-- Running over an array of any nesting: every scalar is computed from the corresponding one of the source. -/
theorem run_nested {α β : Type} (op : α → β) (src : USrc α) (sz : Nat) (hsz : 0 < sz) :
    ∀ {ds : List (Option Nat)} {sm : List UMeta}, MetaFits ds sm → ∀ (d s : Int) (m : UDst β) (v : NestVal α),
      viewArr src.cells src.recs sm s = some v → Room (dataSize sz ds) d m →
      ∃ m', runU op src (idealLevels (freshMeta sz ds) sm) d s m = .ok m' ∧
        RunsTo (freshMeta sz ds) (dataSize sz ds) (v.map op) d m m' := by
  intro ds sm hf
  induction hf with
  | nil =>
    intro d s m v hv hr
    simp only [viewArr, Option.map_eq_some_iff] at hv
    obtain ⟨x, hx, rfl⟩ := hv
    refine ⟨{ m with cells := putAt m.cells d (op x) }, ?_, Int.le_refl _, hr.2.2, ?_, ?_⟩
    · simp only [freshMeta, idealLevels, runU, hx]
    · intro a _ h
      refine ⟨rfl, ?_⟩
      simp only [putAt]
      rw [if_neg]
      simp only [dataSize] at h
      omega
    · intro cells recs h
      have := (h d (.inl (by simp only [dataSize]; omega))).2
      simp only [freshMeta, viewArr, this, putAt, if_true, Option.map_some, NestVal.map]
  | @fixed n ss ds ms _ ih =>
    intro d s m v hv hr
    simp only [viewArr, Option.map_eq_some_iff] at hv
    obtain ⟨vs, hvs, rfl⟩ := hv
    simp only [dataSize] at hr
    obtain ⟨m', e, h1, h2, h3, h4⟩ := loop_runs (fun d s m v => ih d s m v) n (dataSize sz ds) ss (.inl rfl) d s m vs hvs hr
    refine ⟨m', ?_, h1, h2, h3, ?_⟩
    · simp only [freshMeta, idealLevels, runU]
      exact e
    · intro cells recs h
      simp only [freshMeta, viewArr, NestVal.map]
      rw [h4 cells recs h]; rfl
  | @var ss so ds ms _ ih =>
    intro d s m v hv hr
    simp only [viewArr, Option.bind_eq_some_iff, Option.map_eq_some_iff] at hv
    obtain ⟨⟨b, n⟩, hrec, vs, hvs, rfl⟩ := hv
    simp only [dataSize] at hr
    obtain ⟨r1, r2, r3⟩ := hr
    have hnone : m.recs d = none := r2 d (by omega) (by omega)
    let m0 : UDst β := { m with recs := putAt m.recs d (m.next, n), next := m.next + n * dataSize sz ds }
    have hroom : Room (n * dataSize sz ds) m.next m0 := by
      refine ⟨?_, ?_, ?_⟩
      · show m.next + ((n * dataSize sz ds : Nat) : Int) ≤ m.next + n * dataSize sz ds
        rw [Int.natCast_mul]
      · intro a h1 h2
        show putAt m.recs d (m.next, n) a = none
        simp only [putAt]
        rw [if_neg (by omega)]
        exact r3 a h1
      · intro a h1
        have h1' : m.next + n * dataSize sz ds ≤ a := h1
        have : 0 ≤ (n : Int) * dataSize sz ds := by exact_mod_cast Nat.zero_le (n * dataSize sz ds)
        show putAt m.recs d (m.next, n) a = none
        simp only [putAt]
        rw [if_neg (by omega)]
        exact r3 a (by omega)
    -- the strides the kernel uses for one element or none
    have hvs' : viewList (viewArr src.cells src.recs ms) (if n = 1 then 0 else ss) n (b + so) = some vs := by
      by_cases h : n = 1
      · subst h
        rw [if_pos rfl]
        simp only [viewList] at hvs ⊢
        exact hvs
      · rw [if_neg h]; exact hvs
    obtain ⟨m', e, h1, h2, h3, h4⟩ := loop_runs (fun d s m v => ih d s m v) n (if n ≤ 1 then 0 else (dataSize sz ds : Int))
      (if n = 1 then 0 else ss) (by by_cases h : n ≤ 1 <;> simp [h]) m.next (b + so) m0 vs hvs' hroom
    have hm0 : m0.next = m.next + n * dataSize sz ds := rfl
    have hnn : 0 ≤ (n : Int) * dataSize sz ds := by exact_mod_cast Nat.zero_le (n * dataSize sz ds)
    have hcast : ((n * dataSize sz ds : Nat) : Int) = (n : Int) * dataSize sz ds := Int.natCast_mul _ _
    have hd' : m'.recs d = some (m.next, n) ∧ m'.cells d = m.cells d := by
      have := h3 d (by omega) (by omega)
      refine ⟨this.1.trans ?_, this.2⟩
      show putAt m.recs d (m.next, n) d = _
      simp [putAt]
    refine ⟨m', ?_, by omega, h2, ?_, ?_⟩
    · simp only [freshMeta, idealLevels, runU, hrec, hnone, ne_eq, not_true_eq_false, if_false]
      exact e
    · intro a ha hna
      have hq := h3 a (by omega) (by omega)
      refine ⟨hq.1.trans ?_, hq.2⟩
      show putAt m.recs d (m.next, n) a = _
      simp only [putAt]
      simp only [dataSize] at hna
      rw [if_neg (by omega)]
    · intro cells recs h
      simp only [dataSize] at h
      simp only [freshMeta, viewArr, NestVal.map]
      have hd := h d (.inl (by omega))
      rw [hd.1, hd'.1]
      simp only [Option.bind_some, Int.add_zero]
      have hl := h4 cells recs (fun a ha => h a (by rw [hcast] at ha; right; omega))
      have hl' : viewList (viewArr cells recs (freshMeta sz ds)) (dataSize sz ds : Int) n m.next = some (mapAll op vs) := by
        by_cases h' : n ≤ 1
        · rw [if_pos h'] at hl
          rw [← hl]
          have : n = 0 ∨ n = 1 := by omega
          rcases this with rfl | rfl
          · rfl
          · simp only [viewList]
        · rw [if_neg h'] at hl; exact hl
      rw [hl']; rfl

end Dynd
