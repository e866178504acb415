/-
C33, C34: missing values.
-/
import Verif.Model.Option
import Verif.Props.IntProps
import Mathlib.Tactic.SplitIfs
import Mathlib.Tactic.Ring
import Mathlib.Tactic.Linarith

namespace Dynd

/-! ## C33 -/

/-- The types for which the sentinel scheme is implemented by value: everything but `bytes` and `string`. -/
def OptTy.HasSentinel : OptTy → Prop
  | .flt F => F = .single ∨ F = .double
  | .cplx F => F = .single ∨ F = .double
  | .bytes | .string => False
  | _ => True

/-- Specification: the values that are *not* reserved for NA.  `bool`: false/true.  Integers: everything but the least
    (signed) or greatest (unsigned) value.  Floats: everything but NaN.  Complex: everything but the one pair of
    NA patterns. -/
def Ordinary : (t : OptTy) → t.Rep → Prop
  | .bool, (b : Nat) => b = 0 ∨ b = 1
  | .int t, (v : Int) => t.min ≤ v ∧ v ≤ t.max ∧ v ≠ (if t.signed then t.min else t.max)
  | .flt F, (b : Nat) => ¬ F.IsNan b
  | .cplx F, (p : Nat × Nat) => p ≠ (naBits F, naBits F)
  | .void, _ => False
  | .bytes, _ => True
  | .string, _ => True

/-- **C33** for every type with a sentinel: after assigning NA, `is_na` is true, whatever was stored before. -/
theorem assign_na_is_na (t : OptTy) (h : t.HasSentinel) (old : t.Rep) : isNa t (assignNaOp t old) = true := by
  cases t with
  | bool => simp [isNa, assignNaOp]
  | int t =>
    have key : ∀ (b : Bool) (x y : Int),
        (if b then decide ((if b then x else y) = x) else decide ((if b then x else y) = y)) = true := by
      intro b x y; cases b <;> simp
    exact key t.signed t.min t.max
  | flt F => rcases h with rfl | rfl <;> (simp only [isNa, assignNaOp]; decide)
  | cplx F => simp [isNa, assignNaOp]
  | void => rfl
  | bytes => exact h.elim
  | string => exact h.elim

/-- **C33**: an ordinary value is available, for every type. -/
theorem ordinary_is_available (t : OptTy) (v : t.Rep) (h : Ordinary t v) : isNa t v = false := by
  cases t with
  | bool => simp only [isNa]; rcases h with h | h <;> subst h <;> rfl
  | int t =>
    simp only [isNa]
    obtain ⟨_, _, h⟩ := h
    cases hs : t.signed <;> simp [hs] at h ⊢ <;> exact h
  | flt F =>
    simp only [isNa, fmtIsNan]
    simp only [Ordinary, Fmt.IsNan] at h
    by_cases h1 : F.ex v = F.expMax <;> by_cases h2 : F.sig v = 0 <;> simp_all
  | cplx F =>
    obtain ⟨a, b⟩ := v
    simp only [isNa]
    simp only [Ordinary, ne_eq, Prod.mk.injEq] at h
    by_cases h1 : a = naBits F <;> by_cases h2 : b = naBits F <;> simp_all
  | void => exact h.elim
  | bytes => cases v <;> rfl
  | string => cases v <;> rfl

/-- Conversely only reserved values are NA: `is_na` is exactly the complement of the ordinary values (in range). -/
theorem is_na_iff_reserved (t : OptTy) (h : t.HasSentinel) (v : t.Rep)
    (hv : match t, v with | .int t, (x : Int) => t.min ≤ x ∧ x ≤ t.max | _, _ => True) :
    isNa t v = true ↔ ¬ Ordinary t v := by
  constructor
  · intro h1 h2; rw [ordinary_is_available t v h2] at h1; cases h1
  · intro h1
    cases t with
    | bool =>
      simp only [Ordinary] at h1; simp only [isNa, decide_eq_true_eq]
      change Nat at v
      by_contra h2
      exact h1 (by omega)
    | int t =>
      simp only [Ordinary] at h1; simp only [isNa]
      have : v = (if t.signed then t.min else t.max) := by
        by_contra h2; exact h1 ⟨hv.1, hv.2, h2⟩
      cases hs : t.signed <;> simp [hs] at this ⊢ <;> exact this
    | flt F =>
      simp only [Ordinary, Fmt.IsNan, not_not] at h1
      simp only [isNa, fmtIsNan]; simp [h1.1, h1.2]
    | cplx F =>
      simp only [Ordinary, ne_eq, not_not] at h1
      subst h1; simp [isNa]
    | void => rfl
    | bytes => exact h.elim
    | string => exact h.elim

/-- The bit patterns are NaNs (so ordinary float code also sees a NaN) and have the documented payload 1954. -/
theorem na_bits_are_nan : Fmt.single.IsNan (naBits .single) ∧ Fmt.double.IsNan (naBits .double) ∧
    Fmt.single.sig (naBits .single) = 1954 ∧ Fmt.double.sig (naBits .double) = 1954 ∧
    naBits .single < 2 ^ Fmt.single.size ∧ naBits .double < 2 ^ Fmt.double.size := by
  simp only [Fmt.IsNan]; decide

/-- The types handled by the builtin shortcuts: everything except the unsigned integers. -/
def OptTy.BuiltinOk : OptTy → Prop
  | .bool => True
  | .int t => t.signed = true
  | .flt F => F = .single ∨ F = .double
  | .cplx F => F = .single ∨ F = .double
  | _ => False

/-- **C33** for the builtin shortcuts used by readers and printers: they agree with `is_na` / `assign_na`. -/
theorem builtin_agrees (t : OptTy) (h : t.BuiltinOk) (v : t.Rep) :
    isAvailBuiltin t v = !isNa t v ∧ assignNaBuiltin t v = assignNaOp t v := by
  cases t with
  | bool =>
    refine ⟨?_, rfl⟩
    change Nat at v
    simp only [isAvailBuiltin, isNa]
    by_cases hv : v ≤ 1
    · rw [decide_eq_true hv, decide_eq_false (by omega)]; rfl
    · rw [decide_eq_false hv, decide_eq_true (by omega)]; rfl
  | int t =>
    have ht : t.signed = true := h
    refine ⟨?_, ?_⟩
    · simp only [isAvailBuiltin, isNa]; rw [if_pos ht, if_pos ht]; simp
    · have key : ∀ (c : Bool) (x y z : Int), c = true → (if c then x else y) = (if c then x else z) := by
        rintro _ x y z rfl; rfl
      exact key t.signed t.min v t.max ht
  | flt F =>
    refine ⟨by simp [isAvailBuiltin, isNa], ?_⟩
    change (naBits F : Nat) = naBits F
    rfl
  | cplx F =>
    obtain ⟨re, im⟩ := v
    refine ⟨by simp [isAvailBuiltin, isNa], ?_⟩
    change ((naBits F, naBits F) : Nat × Nat) = (naBits F, naBits F)
    rfl
  | void => exact h.elim
  | bytes => exact h.elim
  | string => exact h.elim

/-- **C33 is violated** by the builtin shortcuts for unsigned integers: assigning NA changes nothing, and a `uint8`,
    `uint16`, `uint64` or `uint128` option is never available, whatever it holds. -/
theorem builtin_unsigned_violated (b : Nat) (v : Int) :
    assignNaBuiltin (.int ⟨b, false⟩) v = v ∧ (b ≠ 32 → isAvailBuiltin (.int ⟨b, false⟩) v = false) ∧
    isAvailBuiltin (.int ⟨32, false⟩) (assignNaBuiltin (.int ⟨32, false⟩) (5 : Int)) = true := by
  refine ⟨rfl, fun hb => ?_, by decide⟩
  simp [isAvailBuiltin, hb]

/-- **C33 is violated** for `option[string]` and `option[bytes]`: NA is never seen, whatever is stored — in particular
    right after assigning NA. -/
theorem string_na_violated (old : SBytes) :
    isNa .string (assignNaOp .string old) = false ∧ isNa .bytes (assignNaOp .bytes old) = false ∧
    (∀ s : SBytes, isNa .string s = false ∧ isNa .bytes s = false) := by
  refine ⟨rfl, rfl, fun s => ?_⟩
  cases s <;> exact ⟨rfl, rfl⟩

example : isNa (.int ⟨32, true⟩) (-2147483648 : Int) = true ∧ isNa (.int ⟨32, true⟩) (-2147483647 : Int) = false ∧
    isNa (.int ⟨8, false⟩) (255 : Int) = true ∧ isNa .bool (1 : Nat) = false ∧
    isNa (.flt .single) (0x7f800000 : Nat) = false ∧ isNa (.flt .single) (0x7fc00000 : Nat) = true := by decide

/-! ## C34 -/

section
variable {S D : Type} (isNaF : S → Bool) (conv : S → Res D) (na : D) (srcMem : Int → S)

/-- Specification: `count` independent element assignments in order, element `i` from `src + i*ss` to `dst + i*ds`. -/
def optSpec : Nat → (Int → D) → Int → Int → Int → Int → Res (Int → D)
  | 0, m, _, _, _, _ => .ok m
  | n + 1, m, dst, ds, src, ss => do
    let m ← optAssignSingle isNaF conv na srcMem m dst src
    optSpec n m (dst + ds) ds (src + ss) ss

theorem optSpec_add (a b : Nat) (m : Int → D) (dst ds src ss : Int) :
    optSpec isNaF conv na srcMem (a + b) m dst ds src ss =
      (optSpec isNaF conv na srcMem a m dst ds src ss >>= fun m =>
        optSpec isNaF conv na srcMem b m (dst + a * ds) ds (src + a * ss) ss) := by
  induction a generalizing m dst src with
  | zero => simp [optSpec]
  | succ a ih =>
    rw [Nat.succ_add]
    simp only [optSpec]
    cases optAssignSingle isNaF conv na srcMem m dst src with
    | throw e => rfl
    | ub => rfl
    | ok m' =>
      simp only [Res.bind_ok]
      rw [ih]
      have e1 : dst + ds + (a : Int) * ds = dst + ((a + 1 : Nat) : Int) * ds := by push_cast; ring
      have e2 : src + ss + (a : Int) * ss = src + ((a + 1 : Nat) : Int) * ss := by push_cast; ring
      rw [e1, e2]

theorem valueAssign_spec (n : Nat) (m : Int → D) (dst ds src ss : Int)
    (h : ∀ i < n, isNaF (srcMem (src + (i : Nat) * ss)) = false) :
    valueAssign conv srcMem n m dst ds src ss = optSpec isNaF conv na srcMem n m dst ds src ss := by
  induction n generalizing m dst src with
  | zero => rfl
  | succ n ih =>
    have h0 := h 0 (by omega)
    simp only [Nat.cast_zero, zero_mul, add_zero] at h0
    simp only [valueAssign, optSpec, optAssignSingle, h0]
    cases conv (srcMem src) with
    | throw e => rfl
    | ub => rfl
    | ok v =>
      simp only [Res.bind_ok, Bool.false_eq_true, if_false, Res.pure_eq]
      apply ih
      intro i hi
      have := h (i + 1) (by omega)
      rw [show src + ss + (i : Int) * ss = src + ((i + 1 : Nat) : Int) * ss by push_cast; ring]
      exact this

theorem naAssign_spec (n : Nat) (m : Int → D) (dst ds src ss : Int)
    (h : ∀ i < n, isNaF (srcMem (src + (i : Nat) * ss)) = true) :
    optSpec isNaF conv na srcMem n m dst ds src ss = .ok (naAssign na n m dst ds) := by
  induction n generalizing m dst src with
  | zero => rfl
  | succ n ih =>
    have h0 := h 0 (by omega)
    simp only [Nat.cast_zero, zero_mul, add_zero] at h0
    simp only [naAssign, optSpec, optAssignSingle, h0, if_true, Res.bind_ok]
    apply ih
    intro i hi
    have := h (i + 1) (by omega)
    rw [show src + ss + (i : Int) * ss = src + ((i + 1 : Nat) : Int) * ss by push_cast; ring]
    exact this

theorem isNaStrided_length (n : Nat) (src ss : Int) : (isNaStrided isNaF srcMem n src ss).length = n := by
  induction n generalizing src with
  | zero => rfl
  | succ n ih => simp [isNaStrided, ih]

theorem isNaStrided_get (n : Nat) (src ss : Int) (i : Nat) (hi : i < n) :
    (isNaStrided isNaF srcMem n src ss)[i]? = some (isNaF (srcMem (src + (i : Nat) * ss))) := by
  induction n generalizing src i with
  | zero => omega
  | succ n ih =>
    cases i with
    | zero => simp [isNaStrided]
    | succ i =>
      simp only [isNaStrided, List.getElem?_cons_succ]
      rw [ih _ _ (by omega)]
      rw [show src + ss + (i : Int) * ss = src + ((i + 1 : Nat) : Int) * ss by push_cast; ring]

theorem isNaStrided_drop (n k : Nat) (src ss : Int) (hk : k ≤ n) :
    (isNaStrided isNaF srcMem n src ss).drop k = isNaStrided isNaF srcMem (n - k) (src + k * ss) ss := by
  induction k generalizing n src with
  | zero => simp
  | succ k ih =>
    obtain ⟨n, rfl⟩ : ∃ n', n = n' + 1 := ⟨n - 1, by omega⟩
    simp only [isNaStrided, List.drop_succ_cons]
    rw [ih _ _ (by omega)]
    rw [show src + ss + (k : Int) * ss = src + ((k + 1 : Nat) : Int) * ss by push_cast; ring]
    congr 1; omega

theorem memchrB_none {v : Bool} {l : List Bool} (h : memchrB v l = none) : ∀ i : Nat, l[i]? ≠ some v := by
  induction l with
  | nil => simp
  | cons b r ih =>
    simp only [memchrB] at h
    split_ifs at h with hb
    intro i
    cases i with
    | zero => simpa using hb
    | succ i => simp only [List.getElem?_cons_succ]; exact ih (by simpa using h) i

theorem memchrB_some {v : Bool} {l : List Bool} {k : Nat} (h : memchrB v l = some k) :
    l[k]? = some v ∧ ∀ i < k, l[i]? ≠ some v := by
  induction l generalizing k with
  | nil => simp [memchrB] at h
  | cons b r ih =>
    simp only [memchrB] at h
    split_ifs at h with hb
    · simp only [Option.some.injEq] at h; subst h; simp [hb]
    · rw [Option.map_eq_some_iff] at h
      obtain ⟨j, hj, rfl⟩ := h
      obtain ⟨h1, h2⟩ := ih hj
      refine ⟨by simpa using h1, ?_⟩
      intro i hi
      cases i with
      | zero => simpa using hb
      | succ i => simp only [List.getElem?_cons_succ]; exact h2 i (by omega)

theorem memchrB_strided_none {v : Bool} {n : Nat} {src ss : Int}
    (h : memchrB v (isNaStrided isNaF srcMem n src ss) = none) :
    ∀ i < n, isNaF (srcMem (src + (i : Nat) * ss)) = !v := by
  intro i hi
  have := memchrB_none h i
  rw [isNaStrided_get _ _ _ _ _ _ hi] at this
  cases v <;> simpa using this

theorem memchrB_strided_some {v : Bool} {n k : Nat} {src ss : Int}
    (h : memchrB v (isNaStrided isNaF srcMem n src ss) = some k) :
    k < n ∧ isNaF (srcMem (src + k * ss)) = v ∧ ∀ i < k, isNaF (srcMem (src + (i : Nat) * ss)) = !v := by
  obtain ⟨h1, h2⟩ := memchrB_some h
  have hk : k < n := by
    rw [List.getElem?_eq_some_iff] at h1
    obtain ⟨h1, _⟩ := h1
    rwa [isNaStrided_length] at h1
  refine ⟨hk, ?_, ?_⟩
  · rw [isNaStrided_get _ _ _ _ _ _ hk] at h1; simpa using h1
  · intro i hi
    have := h2 i hi
    rw [isNaStrided_get _ _ _ _ _ _ (by omega)] at this
    cases v <;> simpa using this

/-- One chunk: the run loop does exactly the element assignments of the chunk, in order.  The third component is how
    far the pointer array has been moved: 0 if the last element is missing (or there is none). -/
theorem optRuns_spec (fuel n : Nat) (m : Int → D) (dst ds sc ss : Int) (hf : n < fuel) :
    ∃ t : Nat, optRuns conv na srcMem fuel m dst ds sc ss (isNaStrided isNaF srcMem n sc ss) =
      (optSpec isNaF conv na srcMem n m dst ds sc ss >>= fun m => .ok (m, dst + n * ds, (t : Int) * ss)) ∧
      (0 < n → (t = 0 ↔ isNaF (srcMem (sc + ((n - 1 : Nat) : Int) * ss)) = true)) := by
  induction fuel generalizing n m dst sc with
  | zero => omega
  | succ fuel ih =>
    simp only [optRuns]
    rcases h1 : memchrB true (isNaStrided isNaF srcMem n sc ss) with _ | k
    · simp only
      have hall := memchrB_strided_none _ _ h1
      rw [isNaStrided_length, valueAssign_spec isNaF conv na srcMem n m dst ds sc ss (by simpa using hall)]
      refine ⟨n, rfl, fun hn => ?_⟩
      rw [hall (n - 1) (by omega)]
      simp; omega
    · simp only
      obtain ⟨hk, hkv, hkb⟩ := memchrB_strided_some _ _ h1
      rw [valueAssign_spec isNaF conv na srcMem k m dst ds sc ss (by simpa using hkb),
        isNaStrided_drop _ _ _ _ _ _ (Nat.le_of_lt hk)]
      have hsplit := optSpec_add isNaF conv na srcMem k (n - k) m dst ds sc ss
      rw [show k + (n - k) = n by omega] at hsplit
      rcases h2 : memchrB false (isNaStrided isNaF srcMem (n - k) (sc + k * ss) ss) with _ | j
      · have hall := memchrB_strided_none _ _ h2
        refine ⟨0, ?_, fun hn => ?_⟩
        · rw [hsplit]
          cases optSpec isNaF conv na srcMem k m dst ds sc ss with
          | throw e => rfl
          | ub => rfl
          | ok m' =>
            simp only [Res.bind_ok, Res.pure_eq]
            rw [naAssign_spec isNaF conv na srcMem (n - k) m' (dst + k * ds) ds (sc + k * ss) ss (by simpa using hall)]
            simp only [Res.bind_ok, Nat.cast_zero, zero_mul, isNaStrided_length]
            have : dst + (k : Int) * ds + ((n - k : Nat) : Int) * ds = dst + n * ds := by
              rw [Nat.cast_sub (Nat.le_of_lt hk)]; ring
            rw [this]
        · have := hall (n - k - 1) (by omega)
          rw [show sc + (k : Int) * ss + ((n - k - 1 : Nat) : Int) * ss = sc + ((n - 1 : Nat) : Int) * ss by
            rw [show n - 1 = k + (n - k - 1) by omega]; push_cast; ring] at this
          simpa using this
      · obtain ⟨hj, hjv, hjb⟩ := memchrB_strided_some _ _ h2
        have hj0 : 0 < j := by
          rcases Nat.eq_zero_or_pos j with h | h
          · subst h
            simp only [Nat.cast_zero, zero_mul, add_zero] at hjv
            rw [hkv] at hjv; cases hjv
          · exact h
        have hsplit2 := fun m' => optSpec_add isNaF conv na srcMem j (n - k - j) m' (dst + k * ds) ds (sc + k * ss) ss
        rw [show j + (n - k - j) = n - k by omega] at hsplit2
        have hd := isNaStrided_drop isNaF srcMem (n - k) j (sc + k * ss) ss (Nat.le_of_lt hj)
        have hlen : (isNaStrided isNaF srcMem (n - k - j) (sc + k * ss + j * ss) ss).length > 0 := by
          rw [isNaStrided_length]; omega
        have hna := fun m' => naAssign_spec isNaF conv na srcMem j m' (dst + k * ds) ds (sc + k * ss) ss
          (by simpa using hjb)
        rw [hsplit]
        -- the trailing part does not depend on the memory
        have hlast : sc + (k : Int) * ss + (j : Int) * ss + ((n - k - j - 1 : Nat) : Int) * ss =
            sc + ((n - 1 : Nat) : Int) * ss := by
          rw [show n - 1 = k + j + (n - k - j - 1) by omega]; push_cast; ring
        have hdst : dst + (k : Int) * ds + (j : Int) * ds + ((n - k - j : Nat) : Int) * ds = dst + n * ds := by
          rw [show (n : Int) = ((k + j + (n - k - j) : Nat) : Int) by congr 1; omega]; push_cast; ring
        simp only [hd, if_pos hlen]
        cases hsp : optSpec isNaF conv na srcMem k m dst ds sc ss with
        | throw e =>
          obtain ⟨t, _, ht⟩ := ih (n - k - j) m (dst + k * ds + j * ds) (sc + k * ss + j * ss) (by omega)
          refine ⟨t, rfl, fun _ => ?_⟩
          rw [ht (by omega), hlast]
        | ub =>
          obtain ⟨t, _, ht⟩ := ih (n - k - j) m (dst + k * ds + j * ds) (sc + k * ss + j * ss) (by omega)
          refine ⟨t, rfl, fun _ => ?_⟩
          rw [ht (by omega), hlast]
        | ok m' =>
          obtain ⟨t, h3, ht⟩ := ih (n - k - j) (naAssign na j m' (dst + k * ds) ds) (dst + k * ds + j * ds)
            (sc + k * ss + j * ss) (by omega)
          refine ⟨t, ?_, fun _ => ?_⟩
          · simp only [Res.bind_ok]
            rw [h3, hsplit2, hna, hdst]
            rfl
          · rw [ht (by omega), hlast]

/-- **C34** up to the chunk size (`DYND_BUFFER_CHUNK_SIZE` = 128): a strided option assignment is exactly the
    element-by-element assignment, in order, including the exception raised by the first value that cannot be
    converted.  Missing: counts above 128, where the code is wrong (see the violated theorems). -/
theorem opt_assign_exact_partial (m : Int → D) (dst ds src ss : Int) (count : Nat) (h : count ≤ 128) :
    optAssignStrided isNaF conv na srcMem m dst ds src ss count =
      optSpec isNaF conv na srcMem count m dst ds src ss := by
  unfold optAssignStrided
  simp only [optChunks]
  by_cases h0 : count > 0
  · rw [if_pos h0, Nat.min_eq_left h, if_neg (by simp)]
    obtain ⟨t, h1, _⟩ := optRuns_spec isNaF conv na srcMem (count + 1) count m dst ds src ss (by omega)
    rw [h1]
    cases optSpec isNaF conv na srcMem count m dst ds src ss with
    | throw e => rfl
    | ub => rfl
    | ok m' =>
      obtain ⟨c, rfl⟩ : ∃ c, count = c + 1 := ⟨count - 1, by omega⟩
      simp only [Res.bind_ok, Nat.sub_self, optChunks]
      rw [if_neg (by omega)]; rfl
  · obtain rfl : count = 0 := by omega
    rfl

/-- What the element-by-element assignment means for the contents of memory, when every available value converts and
    the destinations are distinct: element `i` is NA if the source element is NA and its converted value otherwise;
    no other address changes. -/
theorem optSpec_pointwise (n : Nat) (m : Int → D) (dst ds src ss : Int) (hds : ds ≠ 0) (f : S → D)
    (hf : ∀ i < n, isNaF (srcMem (src + (i : Nat) * ss)) = false →
      conv (srcMem (src + (i : Nat) * ss)) = .ok (f (srcMem (src + (i : Nat) * ss)))) :
    ∃ m', optSpec isNaF conv na srcMem n m dst ds src ss = .ok m' ∧
      (∀ i < n, m' (dst + (i : Nat) * ds) =
        if isNaF (srcMem (src + (i : Nat) * ss)) then na else f (srcMem (src + (i : Nat) * ss))) ∧
      (∀ a, (∀ i < n, a ≠ dst + (i : Nat) * ds) → m' a = m a) := by
  induction n generalizing m dst src with
  | zero => exact ⟨m, rfl, by simp, fun _ _ => rfl⟩
  | succ n ih =>
    have h0 := hf 0 (by omega)
    simp only [Nat.cast_zero, zero_mul, add_zero] at h0
    have es : ∀ i : Nat, src + ss + (i : Int) * ss = src + ((i + 1 : Nat) : Int) * ss := fun i => by push_cast; ring
    have ed : ∀ i : Nat, dst + ds + (i : Int) * ds = dst + ((i + 1 : Nat) : Int) * ds := fun i => by push_cast; ring
    have h1 : optAssignSingle isNaF conv na srcMem m dst src =
        .ok (store m dst (if isNaF (srcMem src) then na else f (srcMem src))) := by
      unfold optAssignSingle
      cases hn : isNaF (srcMem src) with
      | true => simp
      | false => rw [h0 hn]; simp
    simp only [optSpec, h1, Res.bind_ok]
    obtain ⟨m', e, p1, p2⟩ := ih (store m dst (if isNaF (srcMem src) then na else f (srcMem src))) (dst + ds)
      (src + ss) (by
        intro i hi
        rw [es]
        exact hf (i + 1) (by omega))
    refine ⟨m', e, ?_, ?_⟩
    · intro i hi
      cases i with
      | zero =>
        simp only [Nat.cast_zero, zero_mul, add_zero]
        rw [p2 dst]
        · simp [store]
        · intro i _ hh
          rw [ed] at hh
          have : ((i + 1 : Nat) : Int) * ds = 0 := by linarith
          rcases mul_eq_zero.mp this with h | h
          · omega
          · exact hds h
      | succ i =>
        have := p1 i (by omega)
        rw [ed, es] at this
        exact this
    · intro a ha
      rw [p2 a]
      · have := ha 0 (by omega)
        simp only [Nat.cast_zero, zero_mul, add_zero] at this
        simp [store, this]
      · intro i hi
        rw [ed]
        exact ha (i + 1) (by omega)

/-- **C34**, in terms of memory, up to the chunk size. -/
theorem opt_assign_pointwise_partial (m : Int → D) (dst ds src ss : Int) (count : Nat) (h : count ≤ 128) (hds : ds ≠ 0)
    (f : S → D) (hf : ∀ s, isNaF s = false → conv s = .ok (f s)) :
    ∃ m', optAssignStrided isNaF conv na srcMem m dst ds src ss count = .ok m' ∧
      (∀ i < count, m' (dst + (i : Nat) * ds) =
        if isNaF (srcMem (src + (i : Nat) * ss)) then na else f (srcMem (src + (i : Nat) * ss))) ∧
      (∀ a, (∀ i < count, a ≠ dst + (i : Nat) * ds) → m' a = m a) := by
  rw [opt_assign_exact_partial _ _ _ _ _ _ _ _ _ _ h]
  exact optSpec_pointwise _ _ _ _ _ _ _ _ _ _ hds f (fun i _ h => hf _ h)

/-- **C34 is violated** beyond one chunk: whenever more than 128 elements are assigned, the source stride is not 0 and
    the 128th element is available, the code reads its argument array out of place (undefined behaviour), although
    every element could have been assigned. -/
theorem opt_assign_long_violated (m : Int → D) (dst ds src ss : Int) (count : Nat) (h : 128 < count) (hss : ss ≠ 0)
    (f : S → D) (hf : ∀ s, isNaF s = false → conv s = .ok (f s)) (hds : ds ≠ 0)
    (hav : isNaF (srcMem (src + 127 * ss)) = false) :
    optAssignStrided isNaF conv na srcMem m dst ds src ss count = .ub ∧
    ∃ m', optSpec isNaF conv na srcMem count m dst ds src ss = .ok m' := by
  constructor
  · unfold optAssignStrided
    simp only [optChunks]
    rw [if_pos (by omega), Nat.min_eq_right (by omega), if_neg (by simp)]
    obtain ⟨t, h1, h2⟩ := optRuns_spec isNaF conv na srcMem (128 + 1) 128 m dst ds src ss (by omega)
    obtain ⟨m', h3, _⟩ := optSpec_pointwise isNaF conv na srcMem 128 m dst ds src ss hds f (fun i _ h => hf _ h)
    rw [h1, h3]
    have ht : t ≠ 0 := by
      intro h0
      have h2 := (h2 (by omega)).1 h0
      simp only [show ((128 - 1 : Nat) : Int) = 127 by rfl] at h2
      rw [hav] at h2; cases h2
    obtain ⟨c, rfl⟩ : ∃ c, count = c + 1 := ⟨count - 1, by omega⟩
    simp only [Res.bind_ok, optChunks]
    rw [if_pos (by omega), if_pos]
    rw [zero_add]
    exact mul_ne_zero (by exact_mod_cast ht) hss
  · obtain ⟨m', h3, _⟩ := optSpec_pointwise isNaF conv na srcMem count m dst ds src ss hds f (fun i _ h => hf _ h)
    exact ⟨m', h3⟩

/-- **C34 is violated** in the other case too: when the 128th element is NA (and the stride is not 0), the elements after
    it are taken from the start of the source again.  For 129 elements, element 128 of the destination receives element
    0 of the source. -/
theorem opt_assign_wraps_violated (m : Int → D) (dst ds src ss : Int)
    (f : S → D) (hf : ∀ s, isNaF s = false → conv s = .ok (f s)) (hds : ds ≠ 0)
    (hna : isNaF (srcMem (src + 127 * ss)) = true) :
    ∃ m', optAssignStrided isNaF conv na srcMem m dst ds src ss 129 = .ok m' ∧
      m' (dst + 128 * ds) = (if isNaF (srcMem src) then na else f (srcMem src)) := by
  unfold optAssignStrided
  rw [optChunks]
  rw [if_pos (by omega), if_neg (by simp)]
  simp only [show min 129 128 = 128 from rfl]
  obtain ⟨t, h1, h2⟩ := optRuns_spec isNaF conv na srcMem (128 + 1) 128 m dst ds src ss (by omega)
  obtain ⟨m', h3, _⟩ := optSpec_pointwise isNaF conv na srcMem 128 m dst ds src ss hds f (fun i _ h => hf _ h)
  rw [h1, h3]
  have ht : t = 0 := (h2 (by omega)).2 hna
  subst ht
  simp only [Res.bind_ok]
  rw [optChunks]
  simp only [show 129 - 128 = 1 from rfl]
  rw [if_pos (by omega), if_neg (by simp)]
  simp only [show min 1 128 = 1 from rfl]
  obtain ⟨t2, h4, _⟩ := optRuns_spec isNaF conv na srcMem (1 + 1) 1 m' (dst + ((128 : Nat) : Int) * ds) ds src ss (by omega)
  obtain ⟨m2, h5, h6, _⟩ := optSpec_pointwise isNaF conv na srcMem 1 m' (dst + ((128 : Nat) : Int) * ds) ds src ss hds f
    (fun i _ h => hf _ h)
  have h7 := h6 0 (by omega)
  simp only [Nat.cast_zero, zero_mul, add_zero] at h7
  rw [h4, h5]
  simp only [Res.bind_ok]
  rw [optChunks]
  exact ⟨m2, rfl, h7⟩

theorem valueAssign_add (a b : Nat) (m : Int → D) (dst ds src ss : Int) :
    valueAssign conv srcMem (a + b) m dst ds src ss =
      (valueAssign conv srcMem a m dst ds src ss >>= fun m =>
        valueAssign conv srcMem b m (dst + a * ds) ds (src + a * ss) ss) := by
  induction a generalizing m dst src with
  | zero => simp [valueAssign]
  | succ a ih =>
    rw [Nat.succ_add]
    simp only [valueAssign]
    cases conv (srcMem src) with
    | throw e => rfl
    | ub => rfl
    | ok v =>
      simp only [Res.bind_ok]
      rw [ih]
      have e1 : dst + ds + (a : Int) * ds = dst + ((a + 1 : Nat) : Int) * ds := by push_cast; ring
      have e2 : src + ss + (a : Int) * ss = src + ((a + 1 : Nat) : Int) * ss := by push_cast; ring
      rw [e1, e2]

theorem isNaStrided_any (n : Nat) (src ss : Int) :
    (isNaStrided isNaF srcMem n src ss).any (·) = true ↔ ∃ i < n, isNaF (srcMem (src + (i : Nat) * ss)) = true := by
  rw [List.any_eq_true]
  constructor
  · rintro ⟨b, hb, hb2⟩
    obtain ⟨i, hi, rfl⟩ := List.mem_iff_getElem.mp hb
    have hi' : i < n := by rwa [isNaStrided_length] at hi
    have := isNaStrided_get isNaF srcMem n src ss i hi'
    rw [List.getElem?_eq_getElem hi] at this
    refine ⟨i, hi', ?_⟩
    simp only [Option.some.injEq] at this
    rw [← this]; exact hb2
  · rintro ⟨i, hi, h⟩
    refine ⟨true, ?_, rfl⟩
    have := isNaStrided_get isNaF srcMem n src ss i hi
    rw [h] at this
    exact List.mem_of_getElem? this

theorem optToValueChunks_ok (fuel count : Nat) (m : Int → D) (dst ds src ss : Int) (hf : count < fuel)
    (h : ∀ i < count, isNaF (srcMem (src + (i : Nat) * ss)) = false) :
    optToValueChunks isNaF conv srcMem 128 fuel m dst ds src ss count =
      valueAssign conv srcMem count m dst ds src ss := by
  induction fuel generalizing count m dst src with
  | zero => omega
  | succ fuel ih =>
    simp only [optToValueChunks]
    by_cases h0 : count > 0
    · rw [if_pos h0]
      have hc : min count 128 ≤ count := Nat.min_le_left _ _
      have hc0 : 0 < min count 128 := by omega
      generalize min count 128 = c at *
      rw [if_neg]
      · have := valueAssign_add conv srcMem c (count - c) m dst ds src ss
        rw [show c + (count - c) = count by omega] at this
        rw [this]
        congr 1
        funext m'
        apply ih _ _ _ _ (by omega)
        intro i hi
        have := h (c + i) (by omega)
        rw [show src + (c : Int) * ss + (i : Int) * ss = src + ((c + i : Nat) : Int) * ss by push_cast; ring]
        exact this
      · rw [isNaStrided_any]
        rintro ⟨i, hi, hh⟩
        rw [h i (by omega)] at hh; cases hh
    · rw [if_neg h0]
      obtain rfl : count = 0 := by omega
      rfl

/-- **C34**, option to non-option, any count: without missing values the assignment is the plain element-by-element
    conversion (in order, same exceptions). -/
theorem opt_to_value_exact (m : Int → D) (dst ds src ss : Int) (count : Nat)
    (h : ∀ i < count, isNaF (srcMem (src + (i : Nat) * ss)) = false) :
    optToValueStrided isNaF conv srcMem m dst ds src ss count = valueAssign conv srcMem count m dst ds src ss :=
  optToValueChunks_ok _ _ _ _ _ _ _ _ _ _ (by omega) h

theorem optToValueChunks_na (fuel count : Nat) (m : Int → D) (dst ds src ss : Int) (hf : count < fuel)
    (hconv : ∀ s, conv s ≠ .ub)
    (h : ∃ i < count, isNaF (srcMem (src + (i : Nat) * ss)) = true) :
    (optToValueChunks isNaF conv srcMem 128 fuel m dst ds src ss count).Throws := by
  induction fuel generalizing count m dst src with
  | zero => omega
  | succ fuel ih =>
    simp only [optToValueChunks]
    obtain ⟨i, hi, hna⟩ := h
    rw [if_pos (by omega)]
    have hc : min count 128 ≤ count := Nat.min_le_left _ _
    have hc0 : 0 < min count 128 := by omega
    generalize min count 128 = c at *
    by_cases hany : (isNaStrided isNaF srcMem c src ss).any (·) = true
    · rw [if_pos hany]; exact ⟨_, rfl⟩
    · rw [if_neg hany]
      have hic : c ≤ i := by
        by_contra hh
        exact hany ((isNaStrided_any _ _ _ _ _).mpr ⟨i, by omega, hna⟩)
      have nub : ∀ (n : Nat) m dst src, valueAssign conv srcMem n m dst ds src ss ≠ .ub := by
        intro n
        induction n with
        | zero => intro m dst src; simp [valueAssign]
        | succ n ihn =>
          intro m dst src
          simp only [valueAssign]
          have := hconv (srcMem src)
          cases hcv : conv (srcMem src) with
          | ok v => simp only [Res.bind_ok]; exact ihn _ _ _
          | throw e => simp
          | ub => exact absurd hcv this
      have := nub c m dst src
      cases hv : valueAssign conv srcMem c m dst ds src ss with
      | throw e => exact ⟨e, rfl⟩
      | ub => exact absurd hv this
      | ok m' =>
        simp only [Res.bind_ok]
        apply ih _ _ _ _ (by omega)
        refine ⟨i - c, by omega, ?_⟩
        rw [show src + (c : Int) * ss + ((i - c : Nat) : Int) * ss = src + (i : Int) * ss by
          rw [Nat.cast_sub hic]; ring]
        exact hna

/-- **C34**, option to non-option, any count: a missing value anywhere makes the assignment raise. -/
theorem opt_to_value_na_throws (m : Int → D) (dst ds src ss : Int) (count : Nat) (hconv : ∀ s, conv s ≠ .ub)
    (h : ∃ i < count, isNaF (srcMem (src + (i : Nat) * ss)) = true) :
    (optToValueStrided isNaF conv srcMem m dst ds src ss count).Throws :=
  optToValueChunks_na _ _ _ _ _ _ _ _ _ _ (by omega) hconv h
end

/-- **C34 is violated** by in-band sentinels when the type changes: an available value of a wider type that converts without
    overflow can land on the reserved value of the narrower type and so turns into NA.  The value in question is the
    least value of a signed / the greatest value of an unsigned destination. -/
theorem opt_narrowing_violated (d s : IntTy) (hd : d.Valid) (hs : s.Valid) (hlt : d.bits < s.bits)
    (hsgn : d.signed = s.signed) :
    let v : Int := if d.signed then d.min else d.max
    isNa (.int s) v = false ∧ overflowCast d s v = .ok v ∧ isNa (.int d) v = true := by
  intro v
  obtain ⟨db, sd⟩ := d
  obtain ⟨sb, ss⟩ := s
  simp only at hlt hsgn
  subst hsgn
  simp only [IntTy.Valid] at hd hs
  have p1 : (2 : Nat) ^ (db - 1) < 2 ^ (sb - 1) := Nat.pow_lt_pow_right (by omega) (by omega)
  have p2 : (2 : Nat) ^ db < 2 ^ sb := Nat.pow_lt_pow_right (by omega) (by omega)
  have p3 : 0 < (2 : Nat) ^ (db - 1) := Nat.pow_pos (by omega)
  have p4 : 0 < (2 : Nat) ^ db := Nat.pow_pos (by omega)
  have e := int_assign_exact ⟨db, sd⟩ ⟨sb, sd⟩ v hd hs
  cases sd with
  | true =>
    have hv : v = -((2 ^ (db - 1) : Nat) : Int) := rfl
    have hS : (IntTy.mk sb true).Has v := by rw [IntTy.has_signed, hv]; omega
    have hD : (IntTy.mk db true).Has v := by rw [IntTy.has_signed, hv]; omega
    refine ⟨?_, ?_, ?_⟩
    · simp only [isNa, IntTy.min, if_true, decide_eq_false_iff_not]; rw [hv]; omega
    · exact (e hS).trans (if_pos hD)
    · simp only [isNa, IntTy.min, if_true, decide_eq_true_eq]; exact hv
  | false =>
    have hv : v = ((2 ^ db : Nat) : Int) - 1 := rfl
    have hS : (IntTy.mk sb false).Has v := by rw [IntTy.has_unsigned, hv]; omega
    have hD : (IntTy.mk db false).Has v := by rw [IntTy.has_unsigned, hv]; omega
    refine ⟨?_, ?_, ?_⟩
    · simp only [isNa, IntTy.max, Bool.false_eq_true, if_false, decide_eq_false_iff_not]; rw [hv]; omega
    · exact (e hS).trans (if_pos hD)
    · simp only [isNa, IntTy.max, Bool.false_eq_true, if_false, decide_eq_true_eq]; exact hv

/-- a source with a missing value at every third position, stride 4 -/
example : let srcMem : Int → Int := fun a => if a / 4 % 3 = 2 then (IntTy.mk 32 true).min else a
    (match optAssignStrided (isNa (.int ⟨32, true⟩)) (fun v : Int => Res.ok (v + 1)) (-999) srcMem
        (fun _ => 0) 100 8 0 4 7 with
      | .ok m => [m 100, m 108, m 116, m 124, m 132, m 140, m 148, m 156, m 104]
      | _ => []) = [1, 5, -999, 13, 17, -999, 25, 0, 0] := by decide

end Dynd
