import Verif.Props.IndexProps
/-
Property theorems C03 (views address exactly the selected elements; histories of slices compose).
-/
namespace Dynd
open Res

/-! ## Specification -/

/-- A multi-index is in bounds of a shape. -/
inductive InB : List (Int × Int) → List Int → Prop
  | nil : InB [] []
  | cons {n s i : Int} {dims : List (Int × Int)} {ix : List Int} :
      0 ≤ i → i < n → InB dims ix → InB ((n, s) :: dims) (i :: ix)

/-- Byte offset of the element at a multi-index: dot product with the strides. -/
def dotStrides : List (Int × Int) → List Int → Int
  | (_, s) :: dims, i :: ix => i * s + dotStrides dims ix
  | _, _ => 0

/-- Address of an element of a view. -/
def View.addr (v : View) (ix : List Int) : Int := v.off + dotStrides v.dims ix

/-- All dimension sizes are valid (`0 ≤ n ≤ INT64_MAX`). -/
def View.Valid (v : View) : Prop := ∀ d ∈ v.dims, 0 ≤ d.1 ∧ d.1 ≤ i64Max

/-- Python's meaning of `a[idx...]`: result element `out` is source element `src`. -/
inductive Picks : List IRange → List (Int × Int) → List Int → List Int → Prop
  | nil {dims ix} : Picks [] dims ix ix
  | single {r : IRange} {rs n s dims out src} : r.step = 0 → Picks rs dims out src →
      Picks (r :: rs) ((n, s) :: dims) out (pyWrap n r.start :: src)
  | range {r : IRange} {rs n s dims j out src} : r.step ≠ 0 → Picks rs dims out src →
      Picks (r :: rs) ((n, s) :: dims) (j :: out) ((pyStart n r.startOpt r.step + j * r.step) :: src)

/-- Source elements selected by a multi-dimensional index. -/
inductive Chosen : List IRange → List (Int × Int) → List Int → Prop
  | nil {dims ix} : Chosen [] dims ix
  | single {r : IRange} {rs n s dims src} : r.step = 0 → Chosen rs dims src →
      Chosen (r :: rs) ((n, s) :: dims) (pyWrap n r.start :: src)
  | range {r : IRange} {rs n s dims i src} : r.step ≠ 0 → PySelected n r.startOpt r.finishOpt r.step i →
      Chosen rs dims src → Chosen (r :: rs) ((n, s) :: dims) (i :: src)

/-! ## Proofs -/

theorem lin_start {r : IRange} {n : Int} {l : Lin} (hn : 0 ≤ n) (hstep : r.step ≠ 0)
    (hn2 : n ≤ i64Max) (h : applySingleLinearIndex r n = .ok l) (hsz : 0 < l.size) :
    l.start = pyStart n r.startOpt r.step := by
  obtain ⟨_, _, h3, h4, h5⟩ := slice_selects_exactly hn hstep hn2 h
  have hst := h3 hsz
  have hd : l.Denotes l.start := ⟨0, by omega, hsz, by omega⟩
  -- the progression selected by Python starts at pyStart and contains it
  obtain ⟨⟨j, hj, he⟩, hlt⟩ := (h4 _).1 hd
  have hps : PySelected n r.startOpt r.finishOpt r.step (pyStart n r.startOpt r.step) := by
    refine ⟨⟨0, by omega, by omega⟩, ?_⟩
    split at hlt
    · rw [if_pos (by assumption)]
      have := Int.mul_nonneg hj (show 0 ≤ r.step by omega); omega
    · rw [if_neg (by assumption)]
      have := Int.mul_nonneg hj (show 0 ≤ -r.step by omega)
      rw [Int.mul_neg] at this; omega
  obtain ⟨j', hj', _, he'⟩ := (h4 _).2 hps
  rw [hst] at he'
  -- start = p + j*k, p = start + j'*k  ⇒ (j+j')*k = 0
  have h0 : (j + j') * r.step = 0 := by rw [Int.add_mul]; omega
  rcases Int.mul_eq_zero.1 h0 with h | h
  · have : j = 0 := by omega
    subst this; omega
  · exact absurd h hstep

theorem applyLinearIndex_exact {idx : List IRange} {dims : List (Int × Int)} {off : Int} {out : List (Int × Int)}
    (hv : ∀ d ∈ dims, 0 ≤ d.1 ∧ d.1 ≤ i64Max) (h : applyLinearIndex idx dims = .ok (off, out)) :
    (∀ d ∈ out, 0 ≤ d.1) ∧
    (∀ ox, InB out ox → ∃ ix, InB dims ix ∧ Picks idx dims ox ix ∧ dotStrides dims ix = off + dotStrides out ox) ∧
    (∀ ix, InB dims ix → Chosen idx dims ix → ∃ ox, InB out ox ∧ Picks idx dims ox ix ∧
      dotStrides dims ix = off + dotStrides out ox) := by
  induction idx generalizing dims off out with
  | nil =>
    simp only [applyLinearIndex, Res.ok.injEq, Prod.mk.injEq] at h
    obtain ⟨rfl, rfl⟩ := h
    exact ⟨fun d hd => (hv d hd).1, fun ox ho => ⟨ox, ho, .nil, by omega⟩, fun ix hi _ => ⟨ix, hi, .nil, by omega⟩⟩
  | cons r rs ih =>
    cases dims with
    | nil => simp [applyLinearIndex] at h
    | cons d dims =>
      obtain ⟨n, s⟩ := d
      simp only [applyLinearIndex] at h
      rw [bind_eq_ok] at h
      obtain ⟨l, hl, h⟩ := h
      rw [bind_eq_ok] at h
      obtain ⟨⟨o2, out2⟩, h2, h⟩ := h
      obtain ⟨hn, hn2⟩ := hv (n, s) (by simp)
      simp only at hn hn2
      obtain ⟨ihA, ihB, ihC⟩ := ih (fun d hd => hv d (by simp [hd])) h2
      by_cases hk : r.step = 0
      · have hs := slice_single_exact r.start r.finish n
        have hr : (⟨r.start, r.finish, 0⟩ : IRange) = r := by rw [← hk]
        rw [hr, hl] at hs
        by_cases hb : -n ≤ r.start ∧ r.start < n
        · obtain ⟨e, h0, h1⟩ := hs.1 hb
          simp only [Res.ok.injEq] at e
          subst e
          simp only [if_true, pure_eq, Res.ok.injEq, Prod.mk.injEq] at h
          obtain ⟨rfl, rfl⟩ := h
          refine ⟨ihA, fun ox ho => ?_, fun ix hi hc => ?_⟩
          · obtain ⟨ix, hi, hp, hd⟩ := ihB ox ho
            refine ⟨pyWrap n r.start :: ix, .cons h0 h1 hi, .single hk hp, ?_⟩
            simp only [dotStrides, hd, Int.mul_comm s]; omega
          · cases hc with
            | single _ hc =>
              cases hi with
              | cons _ _ hi =>
                obtain ⟨ox, ho, hp, hd⟩ := ihC _ hi hc
                refine ⟨ox, ho, .single hk hp, ?_⟩
                simp only [dotStrides, hd, Int.mul_comm s]; omega
            | range h _ _ => exact absurd hk h
        · have := hs.2 hb hn; simp at this
      · obtain ⟨e1, e2, e3, e4, e5⟩ := slice_selects_exactly hn hk hn2 hl
        rw [e1] at h
        simp only [Bool.false_eq_true, if_false, pure_eq, Res.ok.injEq, Prod.mk.injEq] at h
        obtain ⟨rfl, rfl⟩ := h
        refine ⟨fun d hd => ?_, fun ox ho => ?_, fun ix hi hc => ?_⟩
        · rcases List.mem_cons.1 hd with rfl | hd
          · exact e2
          · exact ihA d hd
        · cases ho with
          | @cons _ _ j _ ox h0 h1 ho =>
            have hsz : 0 < l.size := by omega
            have hst := e3 hsz
            have hss := lin_start hn hk hn2 hl hsz
            obtain ⟨ix, hi, hp, hd⟩ := ihB ox ho
            have hden : l.Denotes (l.start + j * l.stride) := ⟨j, h0, h1, rfl⟩
            obtain ⟨b0, b1⟩ := e5 _ hden
            rw [hss, hst] at b0 b1
            refine ⟨(pyStart n r.startOpt r.step + j * r.step) :: ix, .cons b0 b1 hi, .range hk hp, ?_⟩
            simp only [dotStrides, hd]
            rw [hss, hst, Int.add_mul, Int.mul_comm s, Int.mul_comm s, Int.mul_assoc]; omega
        · cases hc with
          | single h _ => exact absurd h hk
          | @range _ _ _ _ _ i src _ hsel hc =>
            cases hi with
            | cons b0 b1 hi =>
              obtain ⟨ox, ho, hp, hd⟩ := ihC _ hi hc
              obtain ⟨j, h0, h1, rfl⟩ := (e4 i).2 hsel
              have hsz : 0 < l.size := by omega
              have hst := e3 hsz
              have hss := lin_start hn hk hn2 hl hsz
              refine ⟨j :: ox, .cons h0 h1 ho, ?_, ?_⟩
              · rw [hss, hst]; exact .range hk hp
              · simp only [dotStrides, hd]
                rw [Int.add_mul, Int.mul_comm s, Int.mul_comm s, Int.mul_assoc]; omega

/-- C03: indexing a strided array gives a view in which every element sits at the address of the source
    element that Python's `a[idx...]` designates (in bounds of the source), and every source element the
    index selects appears in the view. -/
theorem view_index_exact {v v' : View} {idx : List IRange} (hv : v.Valid) (h : v.index idx = .ok v') :
    (∀ ox, InB v'.dims ox → ∃ ix, InB v.dims ix ∧ Picks idx v.dims ox ix ∧ v'.addr ox = v.addr ix) ∧
    (∀ ix, InB v.dims ix → Chosen idx v.dims ix → ∃ ox, InB v'.dims ox ∧ Picks idx v.dims ox ix ∧
      v'.addr ox = v.addr ix) := by
  unfold View.index at h
  rw [bind_eq_ok] at h
  obtain ⟨⟨off, out⟩, h1, h⟩ := h
  simp only [pure_eq, Res.ok.injEq] at h
  subst h
  obtain ⟨_, hB, hC⟩ := applyLinearIndex_exact hv h1
  refine ⟨fun ox ho => ?_, fun ix hi hc => ?_⟩
  · obtain ⟨ix, hi, hp, hd⟩ := hB ox ho
    exact ⟨ix, hi, hp, by simp only [View.addr]; omega⟩
  · obtain ⟨ox, ho, hp, hd⟩ := hC ix hi hc
    exact ⟨ox, ho, hp, by simp only [View.addr]; omega⟩

/-- The view of a 3x4 row-major int32 array (16-byte rows), column 1, reversed rows. -/
example : (View.index ⟨0, [(3, 16), (4, 4)]⟩ [⟨i64Min, i64Max, -1⟩, .single 1]) = .ok ⟨36, [(3, -16)]⟩ := by decide

theorem lin_size_le {r : IRange} {n : Int} {l : Lin} (hn : 0 ≤ n) (hn2 : n ≤ i64Max)
    (h : applySingleLinearIndex r n = .ok l) (hr : l.remove = false) : 0 ≤ l.size ∧ l.size ≤ i64Max := by
  have hMax : i64Max = 9223372036854775807 := rfl
  by_cases hk : r.step = 0
  · have hs := slice_single_exact r.start r.finish n
    have hr' : (⟨r.start, r.finish, 0⟩ : IRange) = r := by rw [← hk]
    rw [hr', h] at hs
    by_cases hb : -n ≤ r.start ∧ r.start < n
    · have := (hs.1 hb).1; simp only [Res.ok.injEq] at this; subst this; simp at hr
    · have := hs.2 hb hn; simp at this
  · obtain ⟨e1, e2, e3, e4, e5⟩ := slice_selects_exactly hn hk hn2 h
    refine ⟨e2, ?_⟩
    -- first and last elements are in [0,n) and differ by (size-1)*step
    by_cases hsz : 0 < l.size
    · have hst := e3 hsz
      obtain ⟨a0, a1⟩ := e5 l.start ⟨0, by omega, hsz, by omega⟩
      obtain ⟨b0, b1⟩ := e5 (l.start + (l.size - 1) * l.stride) ⟨l.size - 1, by omega, by omega, rfl⟩
      rw [hst] at b0 b1
      have hsz1 : 0 ≤ l.size - 1 := by omega
      rcases Int.lt_or_gt_of_ne hk with hneg | hpos
      · have := Int.mul_le_mul_of_nonneg_left (show (1:Int) ≤ -r.step by omega) hsz1
        rw [Int.mul_neg] at this; omega
      · have := Int.mul_le_mul_of_nonneg_left (show (1:Int) ≤ r.step by omega) hsz1
        omega
    · omega

theorem applyLinearIndex_valid {idx : List IRange} {dims : List (Int × Int)} {off : Int} {out : List (Int × Int)}
    (hv : ∀ d ∈ dims, 0 ≤ d.1 ∧ d.1 ≤ i64Max) (h : applyLinearIndex idx dims = .ok (off, out)) :
    ∀ d ∈ out, 0 ≤ d.1 ∧ d.1 ≤ i64Max := by
  induction idx generalizing dims off out with
  | nil =>
    simp only [applyLinearIndex, Res.ok.injEq, Prod.mk.injEq] at h
    obtain ⟨rfl, rfl⟩ := h; exact hv
  | cons r rs ih =>
    cases dims with
    | nil => simp [applyLinearIndex] at h
    | cons d dims =>
      obtain ⟨n, s⟩ := d
      simp only [applyLinearIndex] at h
      rw [bind_eq_ok] at h
      obtain ⟨l, hl, h⟩ := h
      rw [bind_eq_ok] at h
      obtain ⟨⟨o2, out2⟩, h2, h⟩ := h
      have ih' := ih (fun d hd => hv d (by simp [hd])) h2
      obtain ⟨hn, hn2⟩ := hv (n, s) (by simp)
      by_cases hr : l.remove = true
      · simp only [hr, if_true, pure_eq, Res.ok.injEq, Prod.mk.injEq] at h
        obtain ⟨rfl, rfl⟩ := h; exact ih'
      · rw [Bool.not_eq_true] at hr
        rw [hr] at h
        simp only [pure_eq, Bool.false_eq_true, if_false, Res.ok.injEq, Prod.mk.injEq] at h
        obtain ⟨rfl, rfl⟩ := h
        intro d hd
        rcases List.mem_cons.1 hd with rfl | hd
        · exact lin_size_le hn hn2 hl hr
        · exact ih' d hd

theorem View.index_valid {v v' : View} {idx : List IRange} (hv : v.Valid) (h : v.index idx = .ok v') : v'.Valid := by
  unfold View.index at h
  rw [bind_eq_ok] at h
  obtain ⟨⟨off, out⟩, h1, h⟩ := h
  simp only [pure_eq, Res.ok.injEq] at h
  subst h
  exact applyLinearIndex_valid hv h1

/-- Composition of the element correspondences of a history of indexing steps. -/
inductive PicksAll : View → List (List IRange) → List Int → List Int → Prop
  | nil {v ix} : PicksAll v [] ix ix
  | cons {v v' : View} {idx rest out mid src} : v.index idx = .ok v' → PicksAll v' rest out mid →
      Picks idx v.dims mid src → PicksAll v (idx :: rest) out src

/-- C03: after any history of indexing steps, every element of the final view is at the address of an
    in-bounds element of the original array, namely the one obtained by composing the steps' meanings. -/
theorem view_history_exact {v v' : View} {hist : List (List IRange)} (hv : v.Valid)
    (h : v.indexAll hist = .ok v') :
    ∀ ox, InB v'.dims ox → ∃ ix, InB v.dims ix ∧ PicksAll v hist ox ix ∧ v'.addr ox = v.addr ix := by
  induction hist generalizing v with
  | nil =>
    simp only [View.indexAll, Res.ok.injEq] at h
    subst h
    exact fun ox ho => ⟨ox, ho, .nil, rfl⟩
  | cons idx rest ih =>
    simp only [View.indexAll] at h
    rw [bind_eq_ok] at h
    obtain ⟨w, hw, h⟩ := h
    intro ox ho
    obtain ⟨mx, hm, hpm, ham⟩ := ih (View.index_valid hv hw) h ox ho
    obtain ⟨ix, hi, hp, ha⟩ := (view_index_exact hv hw).1 mx hm
    exact ⟨ix, hi, .cons hw hpm hp, by rw [ham, ha]⟩

/-- Memory after storing `x` at address `a`. -/
def storeAt {α : Type} (m : Int → α) (a : Int) (x : α) : Int → α := fun b => if b = a then x else m b

/-- C03: writing one element of the view changes exactly the corresponding source element, and no other
    element of the source (whose elements have distinct addresses). -/
theorem view_write_exact {α : Type} {v v' : View} {hist : List (List IRange)} (hv : v.Valid)
    (h : v.indexAll hist = .ok v')
    (hinj : ∀ i j, InB v.dims i → InB v.dims j → v.addr i = v.addr j → i = j)
    (m : Int → α) (x : α) (ox : List Int) (ho : InB v'.dims ox) :
    ∃ ix, InB v.dims ix ∧ PicksAll v hist ox ix ∧ storeAt m (v'.addr ox) x (v.addr ix) = x ∧
      ∀ jx, InB v.dims jx → jx ≠ ix → storeAt m (v'.addr ox) x (v.addr jx) = m (v.addr jx) := by
  obtain ⟨ix, hi, hp, ha⟩ := view_history_exact hv h ox ho
  refine ⟨ix, hi, hp, by simp [storeAt, ha], fun jx hj hne => ?_⟩
  simp only [storeAt]
  rw [if_neg]
  intro he
  exact hne (hinj jx ix hj hi (by rw [he, ha]))

example : (View.indexAll ⟨0, [(3, 16), (4, 4)]⟩ [[⟨1, i64Max, 1⟩, .full], [.single (-1)], [⟨i64Min, i64Max, -2⟩]])
    = .ok ⟨44, [(2, -8)]⟩ := by decide

/-- C03, rank: indexing with more indices than dimensions raises (`too_many_indices`) once the leading
    indices are in range, so no element outside the array is ever designated. -/
theorem too_many_indices_never_ok {v v' : View} {idx : List IRange} (h : v.index idx = .ok v') :
    idx.length ≤ v.dims.length := by
  have : ∀ (idx : List IRange) (dims : List (Int × Int)) o, applyLinearIndex idx dims = .ok o →
      idx.length ≤ dims.length := by
    intro idx
    induction idx with
    | nil => intro _ _ _; simp
    | cons r rs ih =>
      intro dims o h
      cases dims with
      | nil => simp [applyLinearIndex] at h
      | cons d dims =>
        obtain ⟨n, s⟩ := d
        simp only [applyLinearIndex] at h
        rw [bind_eq_ok] at h
        obtain ⟨l, hl, h⟩ := h
        rw [bind_eq_ok] at h
        obtain ⟨o2, h2, h⟩ := h
        have := ih dims _ h2
        simp only [List.length_cons]; omega
  unfold View.index at h
  rw [bind_eq_ok] at h
  obtain ⟨o, h1, h⟩ := h
  exact this _ _ _ h1

end Dynd
