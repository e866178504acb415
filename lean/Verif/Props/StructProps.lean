import Verif.Model.Struct
import Verif.Props.HalfProps
import Verif.Props.ViewProps
/-
Property theorems C38 (default data layout of nested fixed dimensions, tuples and structs) and C64
(indexing nested arrays of tuples and structs).
-/
namespace Dynd
open Res

/-! ## Specification -/

/-- Smallest multiple of `a` that is at least `x`. -/
def roundUp (x a : Nat) : Nat := (x + a - 1) / a * a

theorem roundUp_spec {x a : Nat} (ha : 0 < a) :
    x ≤ roundUp x a ∧ a ∣ roundUp x a ∧ ∀ y, x ≤ y → a ∣ y → roundUp x a ≤ y := by
  unfold roundUp
  refine ⟨?_, Nat.dvd_mul_left _ _, ?_⟩
  · have := Nat.div_add_mod (x + a - 1) a
    have h2 := Nat.mod_lt (x + a - 1) ha
    rw [Nat.mul_comm] at this
    omega
  · rintro y hy ⟨c, rfl⟩
    have : (x + a - 1) / a ≤ c := by
      have h : (x + a - 1) / a < c + 1 := by
        rw [Nat.div_lt_iff_lt_mul ha, Nat.add_mul, Nat.mul_comm c a]; omega
      omega
    calc (x + a - 1) / a * a ≤ c * a := Nat.mul_le_mul_right _ this
      _ = a * c := Nat.mul_comm _ _

mutual
/-- Size in bytes, as mathematical naturals: the C layout rule (each field at the next multiple of its
    alignment, total rounded up to the alignment of the whole). -/
def LTy.bytes : LTy → Nat
  | .scalar s _ => s
  | .dim n e => n * e.bytes
  | .tup fs => roundUp (bytesLoop 0 fs) (maxAlign fs)
/-- End of the last field when the fields are placed from byte `s` on. -/
def bytesLoop (s : Nat) : List LTy → Nat
  | [] => s
  | f :: fs => bytesLoop (roundUp s f.al + f.bytes) fs
/-- Alignment of a type: that of its element, the largest of its fields. -/
def LTy.al : LTy → Nat
  | .scalar _ a => a
  | .dim _ e => e.al
  | .tup fs => maxAlign fs
/-- Largest field alignment (1 if there are no fields). -/
def maxAlign : List LTy → Nat
  | [] => 1
  | f :: fs => max f.al (maxAlign fs)
end

/-- Scalars have an alignment that is a power of two up to 128 and divides their size. -/
inductive LTy.Wf : LTy → Prop
  | scalar {s k : Nat} : k ≤ 7 → 2 ^ k ∣ s → Wf (.scalar s (2 ^ k))
  | dim {n : Nat} {e : LTy} : Wf e → Wf (.dim n e)
  | tup {fs : List LTy} : (∀ f ∈ fs, Wf f) → Wf (.tup fs)

/-- The type and all its parts have a size below `2^63`. -/
inductive LTy.Fits : LTy → Prop
  | scalar {s a : Nat} : s < 2 ^ 63 → Fits (.scalar s a)
  | dim {n : Nat} {e : LTy} : Fits e → LTy.bytes (.dim n e) < 2 ^ 63 → Fits (.dim n e)
  | tup {fs : List LTy} : (∀ f ∈ fs, Fits f) → LTy.bytes (.tup fs) < 2 ^ 63 → Fits (.tup fs)

/-- `Leaf t m p o s a`: the scalar reached from an array of type `t` with arrmeta `m` by the path `p` of
    indices / field numbers lies at byte offset `o`, has size `s` and needs alignment `a`. -/
inductive Leaf : LTy → LMeta → List Int → Int → Nat → Nat → Prop
  | scalar {s a : Nat} {m : LMeta} : Leaf (.scalar s a) m [] 0 s a
  | dim {n : Nat} {e : LTy} {k st i : Int} {me : LMeta} {p : List Int} {o : Int} {s a : Nat} :
      0 ≤ i → i < n → Leaf e me p o s a → Leaf (.dim n e) (.dim k st me) (i :: p) (i * st + o) s a
  | tup {fs : List LTy} {ms : List (Int × LMeta)} {i : Nat} {f : LTy} {fo : Int} {mf : LMeta} {p : List Int}
      {o : Int} {s a : Nat} : fs[i]? = some f → ms[i]? = some (fo, mf) → Leaf f mf p o s a →
      Leaf (.tup fs) (.tup ms) ((i : Int) :: p) (fo + o) s a

/-! ## Proofs -/

theorem LTy.ind {P : LTy → Prop} (h1 : ∀ s a, P (.scalar s a)) (h2 : ∀ n e, P e → P (.dim n e))
    (h3 : ∀ fs, (∀ f ∈ fs, P f) → P (.tup fs)) (t : LTy) : P t := by
  match t with
  | .scalar s a => exact h1 s a
  | .dim n e => exact h2 n e (LTy.ind h1 h2 h3 e)
  | .tup fs => exact h3 fs (fun f _ => LTy.ind h1 h2 h3 f)

theorem and_top {y k : Nat} (hk : k ≤ 64) (hy : y < 2 ^ 64) : y &&& (2 ^ 64 - 2 ^ k) = y / 2 ^ k * 2 ^ k := by
  have e : 2 ^ 64 - 2 ^ k = 2 ^ k * (2 ^ (64 - k) - 1) := by
    rw [Nat.mul_sub, ← Nat.pow_add, Nat.mul_one, Nat.add_sub_cancel' hk]
  rw [e, and_field, Nat.mod_eq_of_lt]
  rw [Nat.div_lt_iff_lt_mul (Nat.two_pow_pos k), ← Nat.pow_add, Nat.sub_add_cancel hk]
  exact hy

theorem incToAlignment_eq {x k : Nat} (hk : k ≤ 7) (hx : x < 2 ^ 63) : incToAlignment x (2 ^ k) = roundUp x (2 ^ k) := by
  have h1 : 2 ^ k ≤ 2 ^ 7 := Nat.pow_le_pow_right (by omega) hk
  have h2 : (x + 2 ^ k - 1) % 2 ^ 64 = x + 2 ^ k - 1 := Nat.mod_eq_of_lt (by omega)
  unfold incToAlignment roundUp
  rw [h2, and_top (by omega) (by omega)]

/-- Every alignment is a power of two up to 128. -/
def SmallPow (a : Nat) : Prop := ∃ k ≤ 7, a = 2 ^ k

theorem SmallPow.pos {a : Nat} (h : SmallPow a) : 0 < a := by obtain ⟨k, _, rfl⟩ := h; exact Nat.two_pow_pos k

theorem SmallPow.max {a b : Nat} (ha : SmallPow a) (hb : SmallPow b) : SmallPow (max a b) := by
  rcases Nat.le_total a b with h | h
  · rw [Nat.max_eq_right h]; exact hb
  · rw [Nat.max_eq_left h]; exact ha

theorem SmallPow.dvd {a b : Nat} (ha : SmallPow a) (hb : SmallPow b) (h : a ≤ b) : a ∣ b := by
  obtain ⟨k, _, rfl⟩ := ha
  obtain ⟨l, _, rfl⟩ := hb
  exact Nat.pow_dvd_pow 2 ((Nat.pow_le_pow_iff_right (by omega)).1 h)

theorem maxAlign_pow : ∀ {fs : List LTy}, (∀ f ∈ fs, SmallPow f.al) → SmallPow (maxAlign fs)
  | [], _ => by rw [maxAlign]; exact ⟨0, by omega, rfl⟩
  | f :: fs, h => by
    rw [maxAlign]
    exact SmallPow.max (h f (by simp)) (maxAlign_pow (fun g hg => h g (by simp [hg])))

theorem le_maxAlign : ∀ {fs : List LTy} {f : LTy}, f ∈ fs → f.al ≤ maxAlign fs
  | g :: fs, f, h => by
    rw [maxAlign]
    rcases List.mem_cons.1 h with rfl | h
    · exact Nat.le_max_left _ _
    · exact Nat.le_trans (le_maxAlign h) (Nat.le_max_right _ _)

theorem Wf.al_pow (t : LTy) (h : t.Wf) : SmallPow t.al := by
  induction t using LTy.ind with
  | h1 s a => cases h with | scalar hk _ => exact ⟨_, hk, by rw [LTy.al]⟩
  | h2 n e ih => cases h with | dim he => rw [LTy.al]; exact ih he
  | h3 fs ih => cases h with | tup hf => rw [LTy.al]; exact maxAlign_pow (fun f hm => ih f hm (hf f hm))

theorem alignLoop_eq {fs : List LTy} : ∀ {m : Nat}, (∀ f ∈ fs, f.align = f.al ∧ f.al < 256) →
    1 ≤ m → alignLoop m fs = max m (maxAlign fs) := by
  induction fs with
  | nil => intro m _ hm; rw [alignLoop, maxAlign]; omega
  | cons f fs ih =>
    intro m h hm
    obtain ⟨e, l⟩ := h f (by simp)
    have ih' := @ih (if f.align > m then f.align % 256 else m) (fun g hg => h g (by simp [hg]))
    rw [alignLoop, maxAlign]
    by_cases c : f.align > m
    · rw [if_pos c] at ih' ⊢
      rw [ih' (by rw [e, Nat.mod_eq_of_lt l]; omega), e, Nat.mod_eq_of_lt l]; omega
    · rw [if_neg c] at ih' ⊢
      rw [ih' hm]; omega

theorem align_eq (t : LTy) (h : t.Wf) : t.align = t.al := by
  induction t using LTy.ind with
  | h1 s a => rw [LTy.align, LTy.al]
  | h2 n e ih => cases h with | dim he => rw [LTy.align, LTy.al]; exact ih he
  | h3 fs ih =>
    cases h with
    | tup hf =>
      have hp : ∀ f ∈ fs, SmallPow f.al := fun f hm => Wf.al_pow f (hf f hm)
      rw [LTy.align, LTy.al, alignLoop_eq _ (Nat.le_refl 1)]
      · have := (maxAlign_pow hp).pos; omega
      · intro f hm
        refine ⟨ih f hm (hf f hm), ?_⟩
        obtain ⟨k, hk, e⟩ := hp f hm
        have : 2 ^ k ≤ 2 ^ 7 := Nat.pow_le_pow_right (by omega) hk
        omega

theorem bytesLoop_mono : ∀ {fs : List LTy} {s : Nat}, (∀ f ∈ fs, 0 < f.al) → s ≤ bytesLoop s fs
  | [], s, _ => by rw [bytesLoop]
  | f :: fs, s, h => by
    rw [bytesLoop]
    have h1 := (roundUp_spec (x := s) (h f (by simp))).1
    have h2 := bytesLoop_mono (fs := fs) (s := roundUp s f.al + f.bytes) (fun g hg => h g (by simp [hg]))
    omega

theorem sizeLoop_eq : ∀ {fs : List LTy} {s : Nat}, (∀ f ∈ fs, f.Wf) → (∀ f ∈ fs, f.dsize = f.bytes) →
    bytesLoop s fs < 2 ^ 63 → sizeLoop s fs = bytesLoop s fs
  | [], s, _, _, _ => by rw [sizeLoop, bytesLoop]
  | f :: fs, s, hw, hd, hb => by
    have hp : ∀ g ∈ fs, 0 < g.al := fun g hg => (Wf.al_pow g (hw g (by simp [hg]))).pos
    have hf := hw f (by simp)
    rw [bytesLoop] at hb
    have m1 := bytesLoop_mono (s := roundUp s f.al + f.bytes) hp
    have m0 := (roundUp_spec (x := s) (Wf.al_pow f hf).pos).1
    obtain ⟨k, hk, e⟩ := Wf.al_pow f hf
    rw [sizeLoop, bytesLoop, align_eq f hf, hd f (by simp), e, incToAlignment_eq hk (by omega), ← e,
      Nat.mod_eq_of_lt (by omega)]
    exact sizeLoop_eq (fun g hg => hw g (by simp [hg])) (fun g hg => hd g (by simp [hg])) hb

theorem dsize_eq (t : LTy) (h : t.Wf) (hfit : t.Fits) : t.dsize = t.bytes := by
  induction t using LTy.ind with
  | h1 s a => rw [LTy.dsize, LTy.bytes]
  | h2 n e ih =>
    cases h with
    | dim he =>
      cases hfit with
      | dim hfe hb =>
        rw [LTy.bytes] at hb
        rw [LTy.dsize, LTy.bytes, ih he hfe, Nat.mod_eq_of_lt (by omega)]
  | h3 fs ih =>
    cases h with
    | tup hf =>
      cases hfit with
      | tup hff hb =>
        have hp : ∀ f ∈ fs, SmallPow f.al := fun f hm => Wf.al_pow f (hf f hm)
        obtain ⟨k, hk, e⟩ := maxAlign_pow hp
        rw [LTy.bytes] at hb
        have m0 := (roundUp_spec (x := bytesLoop 0 fs) (maxAlign_pow hp).pos).1
        have ea : alignLoop 1 fs = maxAlign fs := by
          have := align_eq (.tup fs) (.tup hf); rwa [LTy.align, LTy.al] at this
        rw [LTy.dsize, LTy.bytes, sizeLoop_eq hf (fun f hm => ih f hm (hf f hm) (hff f hm)) (by omega), ea, e,
          incToAlignment_eq hk (by omega)]

theorem al_dvd_bytes (t : LTy) (h : t.Wf) : t.al ∣ t.bytes := by
  induction t using LTy.ind with
  | h1 s a => cases h with | scalar _ hd => rw [LTy.al, LTy.bytes]; exact hd
  | h2 n e ih => cases h with | dim he => rw [LTy.al, LTy.bytes]; exact Nat.dvd_mul_left_of_dvd (ih he) n
  | h3 fs ih =>
    cases h with
    | tup hf =>
      rw [LTy.al, LTy.bytes]
      exact (roundUp_spec (maxAlign_pow (fun f hm => Wf.al_pow f (hf f hm))).pos).2.1

/-- Placement of the fields by the C rule from byte `s` on. -/
def placeLoop (s : Nat) : List LTy → List Nat
  | [] => []
  | f :: fs => roundUp s f.al :: placeLoop (roundUp s f.al + f.bytes) fs

theorem placeLoop_length : ∀ (fs : List LTy) (s : Nat), (placeLoop s fs).length = fs.length
  | [], _ => rfl
  | f :: fs, s => by simp [placeLoop, placeLoop_length fs]

theorem fillOffsetsLoop_eq : ∀ {fs : List LTy} {offs : Nat} {prev : LTy}, (∀ f ∈ fs, f.Wf) →
    (∀ f ∈ fs, f.dsize = f.bytes) → prev.dsize = prev.bytes → bytesLoop (offs + prev.bytes) fs < 2 ^ 63 →
    fillOffsetsLoop offs prev fs = placeLoop (offs + prev.bytes) fs
  | [], _, _, _, _, _, _ => rfl
  | f :: fs, offs, prev, hw, hd, hpv, hb => by
    have hp : ∀ g ∈ fs, 0 < g.al := fun g hg => (Wf.al_pow g (hw g (by simp [hg]))).pos
    have hf := hw f (by simp)
    rw [bytesLoop] at hb
    have m1 := bytesLoop_mono (s := roundUp (offs + prev.bytes) f.al + f.bytes) hp
    have m0 := (roundUp_spec (x := offs + prev.bytes) (Wf.al_pow f hf).pos).1
    obtain ⟨k, hk, e⟩ := Wf.al_pow f hf
    have eo : incToAlignment ((offs + prev.dsize) % 2 ^ 64) f.align = roundUp (offs + prev.bytes) f.al := by
      rw [hpv, Nat.mod_eq_of_lt (by omega), align_eq f hf, e, incToAlignment_eq hk (by omega)]
    simp only [fillOffsetsLoop, placeLoop, eo]
    rw [fillOffsetsLoop_eq (fun g hg => hw g (by simp [hg])) (fun g hg => hd g (by simp [hg])) (hd f (by simp)) hb]

theorem fillOffsets_eq {fs : List LTy} (hw : ∀ f ∈ fs, f.Wf) (hd : ∀ f ∈ fs, f.dsize = f.bytes)
    (hb : bytesLoop 0 fs < 2 ^ 63) : fillOffsets fs = placeLoop 0 fs := by
  cases fs with
  | nil => rfl
  | cons f fs =>
    have r0 : roundUp 0 f.al = 0 := by
      have h := (roundUp_spec (x := 0) (Wf.al_pow f (hw f (by simp))).pos).2.2 0 (Nat.le_refl 0) (Nat.dvd_zero _)
      omega
    rw [bytesLoop, r0] at hb
    rw [fillOffsets, placeLoop, r0, fillOffsetsLoop_eq (fun g hg => hw g (by simp [hg]))
      (fun g hg => hd g (by simp [hg])) (hd f (by simp)) hb]

theorem placeLoop_spec : ∀ {fs : List LTy} {s : Nat} (_ : ∀ f ∈ fs, 0 < f.al) {i : Nat} {f : LTy} {o : Nat},
    fs[i]? = some f → (placeLoop s fs)[i]? = some o → s ≤ o ∧ f.al ∣ o ∧ o + f.bytes ≤ bytesLoop s fs
  | [], _, _, i, f, o, h, _ => by simp at h
  | g :: fs, s, hp, i, f, o, h, ho => by
    have hp' : ∀ f ∈ fs, 0 < f.al := fun f hf => hp f (by simp [hf])
    obtain ⟨a1, a2, _⟩ := roundUp_spec (x := s) (hp g (by simp))
    cases i with
    | zero =>
      simp only [List.getElem?_cons_zero, Option.some.injEq, placeLoop] at h ho
      subst h; subst ho
      refine ⟨a1, a2, ?_⟩
      rw [bytesLoop]
      exact bytesLoop_mono hp'
    | succ i =>
      simp only [List.getElem?_cons_succ, placeLoop] at h ho
      obtain ⟨b1, b2, b3⟩ := placeLoop_spec hp' h ho
      rw [bytesLoop]
      exact ⟨by omega, b2, b3⟩

theorem placeLoop_sorted : ∀ {fs : List LTy} {s : Nat} (_ : ∀ f ∈ fs, 0 < f.al) {i j : Nat} {f : LTy} {o o' : Nat},
    i < j → fs[i]? = some f → (placeLoop s fs)[i]? = some o → (placeLoop s fs)[j]? = some o' →
    o + f.bytes ≤ o'
  | [], _, _, i, j, f, o, o', _, h, _, _ => by simp at h
  | g :: fs, s, hp, i, j, f, o, o', hij, h, ho, ho' => by
    have hp' : ∀ f ∈ fs, 0 < f.al := fun f hf => hp f (by simp [hf])
    cases j with
    | zero => omega
    | succ j =>
      simp only [List.getElem?_cons_succ, placeLoop] at ho'
      cases i with
      | zero =>
        simp only [List.getElem?_cons_zero, Option.some.injEq, placeLoop] at h ho
        subst h; subst ho
        have hl : j < fs.length := by
          have := (List.getElem?_eq_some_iff.1 ho').1
          rwa [placeLoop_length] at this
        exact (placeLoop_spec hp' (List.getElem?_eq_getElem hl) ho').1
      | succ i =>
        simp only [List.getElem?_cons_succ, placeLoop] at h ho
        exact placeLoop_sorted hp' (by omega) h ho ho'

theorem defMetas_get : ∀ (fs : List LTy) (i : Nat), (defMetas fs)[i]? = (fs[i]?).map LTy.defMeta
  | [], i => by simp [defMetas]
  | f :: fs, i => by
    cases i with
    | zero => simp [defMetas]
    | succ i => simp [defMetas, defMetas_get fs i]

theorem zipOffs_get : ∀ {os : List Nat} {ms : List LMeta} {i : Nat} {o : Int} {m : LMeta},
    (zipOffs os ms)[i]? = some (o, m) → ∃ n, os[i]? = some n ∧ (o : Int) = n ∧ ms[i]? = some m
  | [], _, i, o, m, h => by simp [zipOffs] at h
  | _ :: _, [], i, o, m, h => by simp [zipOffs] at h
  | a :: os, b :: ms, i, o, m, h => by
    cases i with
    | zero =>
      simp only [zipOffs, List.getElem?_cons_zero, Option.some.injEq, Prod.mk.injEq] at h
      exact ⟨a, by simp, h.1.symm, by simp [h.2]⟩
    | succ i =>
      simp only [zipOffs, List.getElem?_cons_succ] at h
      obtain ⟨n, h1, h2, h3⟩ := zipOffs_get h
      exact ⟨n, by simpa using h1, h2, by simpa using h3⟩

/-- Byte ranges `[o, o+s)` and `[o', o'+s')` do not overlap. -/
def Disjoint' (o : Int) (s : Nat) (o' : Int) (s' : Nat) : Prop := o + s ≤ o' ∨ o' + s' ≤ o

/-- C38: in the default layout of any type built from scalars, fixed dimensions, tuples and structs, the
    default data size is a multiple of the type's alignment, every scalar is inside `[0, size)` at an offset
    that its alignment divides (and its alignment divides the type's, so it is aligned in memory whenever the
    array's data pointer is), and two different scalars never overlap. -/
theorem default_layout (t : LTy) (hw : t.Wf) (hf : t.Fits) :
    t.align ∣ t.dsize ∧
    (∀ p o s a, Leaf t t.defMeta p o s a → 0 ≤ o ∧ o + s ≤ t.dsize ∧ (a : Int) ∣ o ∧ a ∣ t.align) ∧
    (∀ p o s a q o' s' a', Leaf t t.defMeta p o s a → Leaf t t.defMeta q o' s' a' → p ≠ q → Disjoint' o s o' s') := by
  rw [dsize_eq t hw hf, align_eq t hw]
  refine ⟨al_dvd_bytes t hw, ?_⟩
  induction t using LTy.ind with
  | h1 s a =>
    rw [LTy.al, LTy.bytes]
    refine ⟨fun p o s' a' h => ?_, fun p o s1 a1 q o' s2 a2 h h' hne => ?_⟩
    · cases h; exact ⟨by omega, by omega, Int.dvd_zero _, Nat.dvd_refl _⟩
    · cases h; cases h'; exact absurd rfl hne
  | h2 n e ih =>
    cases hw with
    | dim hwe =>
    cases hf with
    | dim hfe hb =>
    obtain ⟨ih1, ih2⟩ := ih hwe hfe
    have hde := dsize_eq e hwe hfe
    have hbe := al_dvd_bytes e hwe
    rw [LTy.al, LTy.bytes, LTy.defMeta, hde]
    generalize hB : e.bytes = B at *
    generalize e.al = A at *
    refine ⟨fun p o s' a' h => ?_, fun p o s1 a1 q o' s2 a2 h h' hne => ?_⟩
    · cases h with
      | @dim _ _ _ _ i _ p o s a h0 h1 hl =>
        obtain ⟨b0, b1, b2, b3⟩ := ih1 _ _ _ _ hl
        have hm : (i + 1) * (B : Int) ≤ n * B := Int.mul_le_mul_of_nonneg_right (by omega) (by omega)
        have hm0 : 0 ≤ i * (B : Int) := Int.mul_nonneg h0 (by omega)
        rw [Int.add_mul] at hm
        refine ⟨by omega, by rw [Int.natCast_mul]; omega, ?_, b3⟩
        have d1 : (a' : Int) ∣ B := Int.natCast_dvd_natCast.2 (Nat.dvd_trans b3 hbe)
        exact Int.dvd_add (Int.dvd_mul_of_dvd_right d1) b2
    · cases h with
      | @dim _ _ _ _ i _ p o s a h0 h1 hl =>
      cases h' with
      | @dim _ _ _ _ j _ q o' s' a' g0 g1 hl' =>
        obtain ⟨b0, b1, _, _⟩ := ih1 _ _ _ _ hl
        obtain ⟨c0, c1, _, _⟩ := ih1 _ _ _ _ hl'
        rcases Int.lt_trichotomy i j with hij | rfl | hij
        · have hm : (i + 1) * (B : Int) ≤ j * B := Int.mul_le_mul_of_nonneg_right (by omega) (by omega)
          rw [Int.add_mul] at hm
          left; omega
        · have := ih2 _ _ _ _ _ _ _ _ hl hl' (fun h => hne (by rw [h]))
          rcases this with h | h
          · left; omega
          · right; omega
        · have hm : (j + 1) * (B : Int) ≤ i * B := Int.mul_le_mul_of_nonneg_right (by omega) (by omega)
          rw [Int.add_mul] at hm
          right; omega
  | h3 fs ih =>
    cases hw with
    | tup hwf =>
    cases hf with
    | tup hff hb =>
    have hp : ∀ f ∈ fs, SmallPow f.al := fun f hm => Wf.al_pow f (hwf f hm)
    have hpos : ∀ f ∈ fs, 0 < f.al := fun f hm => (hp f hm).pos
    have hd : ∀ f ∈ fs, f.dsize = f.bytes := fun f hm => dsize_eq f (hwf f hm) (hff f hm)
    rw [LTy.bytes] at hb
    have hr := (roundUp_spec (x := bytesLoop 0 fs) (maxAlign_pow hp).pos).1
    have hfill := fillOffsets_eq hwf hd (by omega)
    rw [LTy.al, LTy.bytes, LTy.defMeta, hfill]
    refine ⟨fun p o s' a' h => ?_, fun p o s1 a1 q o' s2 a2 h h' hne => ?_⟩
    · cases h with
      | @tup _ _ i f fo mf p o s a h0 h1 hl =>
        obtain ⟨n, e1, e2, e3⟩ := zipOffs_get h1
        have hm := List.mem_of_getElem? h0
        rw [defMetas_get, h0] at e3
        simp only [Option.map_some, Option.some.injEq] at e3
        subst e3
        obtain ⟨b0, b1, b2, b3⟩ := (ih f hm (hwf f hm) (hff f hm)).1 _ _ _ _ hl
        obtain ⟨c0, c1, c2⟩ := placeLoop_spec hpos h0 e1
        have d := (hp f hm).dvd (maxAlign_pow hp) (le_maxAlign hm)
        refine ⟨by omega, by omega, ?_, Nat.dvd_trans b3 d⟩
        rw [e2]
        exact Int.dvd_add (Int.natCast_dvd_natCast.2 (Nat.dvd_trans b3 c1)) b2
    · cases h with
      | @tup _ _ i f fo mf p o s a h0 h1 hl =>
      cases h' with
      | @tup _ _ j g fo' mf' q o' s' a' g0 g1 hl' =>
        obtain ⟨n, e1, e2, e3⟩ := zipOffs_get h1
        obtain ⟨n', e1', e2', e3'⟩ := zipOffs_get g1
        have hm := List.mem_of_getElem? h0
        have hm' := List.mem_of_getElem? g0
        rw [defMetas_get, h0] at e3
        rw [defMetas_get, g0] at e3'
        simp only [Option.map_some, Option.some.injEq] at e3 e3'
        subst e3; subst e3'
        obtain ⟨b0, b1, _, _⟩ := (ih f hm (hwf f hm) (hff f hm)).1 _ _ _ _ hl
        obtain ⟨c0, c1, _, _⟩ := (ih g hm' (hwf g hm') (hff g hm')).1 _ _ _ _ hl'
        rcases Nat.lt_trichotomy i j with hij | rfl | hij
        · have := placeLoop_sorted hpos hij h0 e1 e1'
          left; omega
        · rw [h0] at g0; rw [e1] at e1'
          simp only [Option.some.injEq] at g0 e1'
          subst g0; subst e1'
          have := (ih f hm (hwf f hm) (hff f hm)).2 _ _ _ _ _ _ _ _ hl hl' (fun h => hne (by rw [h]))
          rcases this with h | h
          · left; omega
          · right; omega
        · have := placeLoop_sorted hpos hij g0 e1' e1
          right; omega

/-- C38: the default data size is exactly the C layout size. -/
theorem default_size_exact (t : LTy) (hw : t.Wf) (hf : t.Fits) : t.dsize = t.bytes := dsize_eq t hw hf

/-- `{int8, int64, 3 * {int8, int16}}`: 8 + 8 + 12 bytes, padded to 32. -/
def layoutSample : LTy := .tup [.scalar 1 1, .scalar 8 8, .dim 3 (.tup [.scalar 1 1, .scalar 2 2])]

theorem layoutSample_ok : layoutSample.Wf ∧ layoutSample.Fits := by
  have w : ∀ k s, k ≤ 7 → 2 ^ k ∣ s → (LTy.scalar s (2 ^ k)).Wf := fun k s h1 h2 => .scalar h1 h2
  have b2 : LTy.bytes (.tup [.scalar 1 1, .scalar 2 2]) = 4 := by simp [LTy.bytes, bytesLoop, maxAlign, LTy.al, roundUp]
  have b3 : LTy.bytes (.dim 3 (.tup [.scalar 1 1, .scalar 2 2])) = 12 := by rw [LTy.bytes, b2]
  constructor
  · refine .tup (fun f hf => ?_)
    simp only [List.mem_cons, List.not_mem_nil, or_false] at hf
    rcases hf with rfl | rfl | rfl
    · exact w 0 1 (by omega) (by decide)
    · exact w 3 8 (by omega) (by decide)
    · refine .dim (.tup (fun f hf => ?_))
      simp only [List.mem_cons, List.not_mem_nil, or_false] at hf
      rcases hf with rfl | rfl
      · exact w 0 1 (by omega) (by decide)
      · exact w 1 2 (by omega) (by decide)
  · refine .tup (fun f hf => ?_) ?_
    · simp only [List.mem_cons, List.not_mem_nil, or_false] at hf
      rcases hf with rfl | rfl | rfl
      · exact .scalar (by omega)
      · exact .scalar (by omega)
      · refine .dim (.tup (fun f hf => ?_) (by rw [b2]; omega)) (by rw [b3]; omega)
        simp only [List.mem_cons, List.not_mem_nil, or_false] at hf
        rcases hf with rfl | rfl
        · exact .scalar (by omega)
        · exact .scalar (by omega)
    · simp [LTy.bytes, bytesLoop, maxAlign, LTy.al, roundUp]

/-- The field `[2][1][1]` of the sample (an int16) sits at byte 22. -/
example : layoutSample.dsize = 32 ∧ Leaf layoutSample layoutSample.defMeta [2, 1, 1] 22 2 2 := by
  refine ⟨by simp [layoutSample, LTy.dsize, sizeLoop, incToAlignment, LTy.align, alignLoop], ?_⟩
  have e : layoutSample.defMeta = .tup [(0, .leaf), (8, .leaf), (16, .dim 3 4 (.tup [(0, .leaf), (2, .leaf)]))] := by
    simp [layoutSample, LTy.defMeta, defMetas, zipOffs, fillOffsets, fillOffsetsLoop, LTy.dsize, sizeLoop,
      incToAlignment, LTy.align, alignLoop]
  rw [e]
  have h1 : Leaf (.tup [.scalar 1 1, .scalar 2 2]) (.tup [(0, .leaf), (2, .leaf)]) [1] (2 + 0) 2 2 :=
    .tup (i := 1) (f := .scalar 2 2) (mf := .leaf) rfl rfl .scalar
  have h2 : Leaf (.dim 3 (.tup [.scalar 1 1, .scalar 2 2])) (.dim 3 4 (.tup [(0, .leaf), (2, .leaf)])) [1, 1]
    (1 * 4 + (2 + 0)) 2 2 := .dim (by omega) (by omega) h1
  have h3 : Leaf layoutSample (.tup [(0, .leaf), (8, .leaf), (16, .dim 3 4 (.tup [(0, .leaf), (2, .leaf)]))])
    (((2 : Nat) : Int) :: [1, 1]) (16 + (1 * 4 + (2 + 0))) 2 2 := Leaf.tup (fo := 16) rfl rfl h2
  exact h3

/-- C38 does not extend to types whose size does not fit in `size_t`: `2^61 * int64` has default data size 0
    (the multiplication wraps silently), so the allocated block does not hold its elements. -/
theorem default_size_overflow_violated :
    (LTy.dim (2 ^ 61) (.scalar 8 8)).dsize = 0 ∧
    Leaf (.dim (2 ^ 61) (.scalar 8 8)) (LTy.dim (2 ^ 61) (.scalar 8 8)).defMeta [1] (1 * 8 + 0) 8 8 := by
  refine ⟨by simp [LTy.dsize], ?_⟩
  simp only [LTy.defMeta, LTy.dsize]
  exact .dim (by omega) (by omega) .scalar

/-! ## Specification of indexing (C64) -/

/-- Python's meaning of `a[idx...]` on nested dimensions and tuples/structs (fields are numbered): the
    result's element at path `out` is the source's element at path `src`. -/
inductive PicksT : List IRange → LTy → List Int → List Int → Prop
  | nil {t p} : PicksT [] t p p
  | single {r : IRange} {rs} {n : Nat} {e out src} : r.step = 0 → PicksT rs e out src →
      PicksT (r :: rs) (.dim n e) out (pyWrap n r.start :: src)
  | range {r : IRange} {rs} {n : Nat} {e j out src} : r.step ≠ 0 → PicksT rs e out src →
      PicksT (r :: rs) (.dim n e) (j :: out) ((pyStart n r.startOpt r.step + j * r.step) :: src)
  | field {r : IRange} {rs} {fs : List LTy} {k : Nat} {f out src} : r.step = 0 → (k : Int) = pyWrap fs.length r.start →
      fs[k]? = some f → PicksT rs f out src → PicksT (r :: rs) (.tup fs) out ((k : Int) :: src)
  | fields {r : IRange} {rs} {fs : List LTy} {k : Nat} {j : Int} {f out src} : r.step ≠ 0 →
      (k : Int) = pyStart fs.length r.startOpt r.step + j * r.step →
      fs[k]? = some f → PicksT rs f out src → PicksT (r :: rs) (.tup fs) (j :: out) ((k : Int) :: src)

/-- The source paths selected by an index. -/
inductive ChosenT : List IRange → List Int → LTy → Prop
  | nil {p t} : ChosenT [] p t
  | single {r : IRange} {rs} {n : Nat} {e src} : r.step = 0 → ChosenT rs src e →
      ChosenT (r :: rs) (pyWrap n r.start :: src) (.dim n e)
  | range {r : IRange} {rs} {n : Nat} {e i src} : r.step ≠ 0 → PySelected n r.startOpt r.finishOpt r.step i →
      ChosenT rs src e → ChosenT (r :: rs) (i :: src) (.dim n e)
  | field {r : IRange} {rs} {fs : List LTy} {k : Nat} {f src} : r.step = 0 → (k : Int) = pyWrap fs.length r.start →
      fs[k]? = some f → ChosenT rs src f → ChosenT (r :: rs) ((k : Int) :: src) (.tup fs)
  | fields {r : IRange} {rs} {fs : List LTy} {k : Nat} {f src} : r.step ≠ 0 →
      PySelected fs.length r.startOpt r.finishOpt r.step k →
      fs[k]? = some f → ChosenT rs src f → ChosenT (r :: rs) ((k : Int) :: src) (.tup fs)

/-- The arrmeta has the shape of the type (and sizes are at most `INT64_MAX`). -/
inductive MOK : LTy → LMeta → Prop
  | scalar {s a} : MOK (.scalar s a) .leaf
  | dim {n : Nat} {e st me} : (n : Int) ≤ i64Max → MOK e me → MOK (.dim n e) (.dim n st me)
  | tup {fs : List LTy} {ms : List (Int × LMeta)} : (fs.length : Int) ≤ i64Max → ms.length = fs.length →
      (∀ (i : Nat) f o m, fs[i]? = some f → ms[i]? = some (o, m) → MOK f m) → MOK (.tup fs) (.tup ms)

/-- A range of fields is selected only by the last index (single fields may be followed by more indices). -/
def FieldRangeLast : List IRange → LTy → Prop
  | [], _ => True
  | _ :: rs, .dim _ e => FieldRangeLast rs e
  | r :: rs, .tup fs => (r.step = 0 ∧ ∀ f ∈ fs, FieldRangeLast rs f) ∨ rs = []
  | _ :: _, .scalar _ _ => True

/-! ## Proofs -/

theorem getI_ok {α : Type} {l : List α} {i : Int} {a : α} :
    getI l i = .ok a ↔ ∃ k : Nat, (k : Int) = i ∧ l[k]? = some a := by
  unfold getI
  by_cases h : 0 ≤ i
  · rw [if_pos h]
    constructor
    · intro e
      refine ⟨i.toNat, by omega, ?_⟩
      cases hl : l[i.toNat]? with
      | none => rw [hl] at e; simp at e
      | some b => rw [hl] at e; simp only [Res.ok.injEq] at e; rw [e]
    · rintro ⟨k, rfl, e⟩
      simp [e]
  · rw [if_neg h]
    constructor
    · intro e; simp at e
    · rintro ⟨k, rfl, _⟩; omega

theorem tabulate_ok {α : Type} {f : Nat → Res α} : ∀ {n : Nat} {xs : List α},
    tabulate f n = .ok xs ↔ xs.length = n ∧ ∀ i x, xs[i]? = some x → f i = .ok x
  | 0, xs => by
    simp only [tabulate, Res.ok.injEq]
    constructor
    · rintro rfl; simp
    · rintro ⟨h, _⟩; exact (List.eq_nil_of_length_eq_zero h).symm
  | n + 1, xs => by
    simp only [tabulate]
    rw [bind_eq_ok]
    constructor
    · rintro ⟨ys, h1, h2⟩
      rw [bind_eq_ok] at h2
      obtain ⟨y, h3, h2⟩ := h2
      simp only [pure_eq, Res.ok.injEq] at h2
      subst h2
      obtain ⟨hl, hy⟩ := tabulate_ok.1 h1
      refine ⟨by simp [hl], fun i x hx => ?_⟩
      by_cases hi : i < ys.length
      · rw [List.getElem?_append_left hi] at hx; exact hy i x hx
      · rw [List.getElem?_append_right (by omega)] at hx
        have hi2 : i - ys.length = 0 := by
          rcases Nat.eq_zero_or_pos (i - ys.length) with h | h
          · exact h
          · rw [List.getElem?_eq_none (by simp; omega)] at hx; simp at hx
        rw [hi2] at hx
        simp only [List.getElem?_cons_zero, Option.some.injEq] at hx
        subst hx
        have : i = n := by omega
        rw [this]; exact h3
    · rintro ⟨hl, hx⟩
      have hne : xs ≠ [] := by rintro rfl; simp at hl
      have hsplit := List.dropLast_append_getLast hne
      refine ⟨xs.dropLast, tabulate_ok.2 ⟨by simp [hl], fun i x hi => ?_⟩, ?_⟩
      · apply hx
        have hlt := (List.getElem?_eq_some_iff.1 hi).1
        rw [← hsplit, List.getElem?_append_left hlt]; exact hi
      · have h3 : f n = .ok (xs.getLast hne) := by
          apply hx
          rw [List.getLast_eq_getElem, List.getElem?_eq_getElem (by omega)]
          simp [hl]
        rw [h3, bind_ok, pure_eq, hsplit]

theorem tabulate_total {α : Type} {f : Nat → Res α} : ∀ {n : Nat}, (∀ i < n, ∃ x, f i = .ok x) →
    ∃ xs, tabulate f n = .ok xs
  | 0, _ => ⟨[], rfl⟩
  | n + 1, h => by
    obtain ⟨xs, h1⟩ := tabulate_total (n := n) (fun i hi => h i (by omega))
    obtain ⟨x, h2⟩ := h n (by omega)
    exact ⟨xs ++ [x], by simp [tabulate, h1, h2]⟩

/-- The two ways an index can succeed on a dimension of size `n`. -/
theorem lin_cases {r : IRange} {n : Int} {l : Lin} (hn : 0 ≤ n) (hn2 : n ≤ i64Max)
    (h : applySingleLinearIndex r n = .ok l) :
    (r.step = 0 ∧ l.remove = true ∧ l.start = pyWrap n r.start ∧ 0 ≤ l.start ∧ l.start < n) ∨
    (r.step ≠ 0 ∧ l.remove = false ∧ 0 ≤ l.size ∧ l.size ≤ i64Max ∧
      (∀ j, 0 ≤ j → j < l.size → l.start + j * l.stride = pyStart n r.startOpt r.step + j * r.step ∧
        0 ≤ l.start + j * l.stride ∧ l.start + j * l.stride < n) ∧
      (∀ i, PySelected n r.startOpt r.finishOpt r.step i → ∃ j, 0 ≤ j ∧ j < l.size ∧ i = l.start + j * l.stride)) := by
  by_cases hk : r.step = 0
  · left
    have hs := slice_single_exact r.start r.finish n
    have hr : (⟨r.start, r.finish, 0⟩ : IRange) = r := by rw [← hk]
    rw [hr, h] at hs
    by_cases hb : -n ≤ r.start ∧ r.start < n
    · obtain ⟨e, h0, h1⟩ := hs.1 hb
      simp only [Res.ok.injEq] at e
      subst e
      exact ⟨hk, rfl, rfl, h0, h1⟩
    · have := hs.2 hb hn; simp at this
  · right
    obtain ⟨e1, e2, e3, e4, e5⟩ := slice_selects_exactly hn hk hn2 h
    refine ⟨hk, e1, e2, (lin_size_le hn hn2 h e1).2, fun j h0 h1 => ?_, fun i hi => ?_⟩
    · have hsz : 0 < l.size := by omega
      have hss := lin_start hn hk hn2 h hsz
      have hst := e3 hsz
      obtain ⟨b0, b1⟩ := e5 _ ⟨j, h0, h1, rfl⟩
      exact ⟨by rw [hss, hst], b0, b1⟩
    · obtain ⟨j, h0, h1, h2⟩ := (e4 i).2 hi
      exact ⟨j, h0, h1, h2⟩

/-- What correct indexing means for the arrmeta part. -/
def IdxExact (idx : List IRange) (t : LTy) (m : LMeta) (rt : LTy) (o : Int) (m' : LMeta) : Prop :=
  MOK rt m' ∧
  (∀ out off s a, Leaf rt m' out off s a → ∃ src, PicksT idx t out src ∧ Leaf t m src (o + off) s a) ∧
  (∀ src off s a, Leaf t m src off s a → ChosenT idx src t →
    ∃ out, PicksT idx t out src ∧ Leaf rt m' out (off - o) s a)

theorem scalar_idx {e : LTy} {rs : List IRange} {rt : LTy} (he : e.isScalar = true) (h : idxTy rs e = .ok rt) :
    rs = [] ∧ rt = e := by
  cases e with
  | scalar s a =>
    cases rs with
    | nil => simp only [idxTy, Res.ok.injEq] at h; exact ⟨rfl, h.symm⟩
    | cons r rs => simp [idxTy] at h
  | dim n e => simp [LTy.isScalar] at he
  | tup fs => simp [LTy.isScalar] at he

theorem MOK.scalar_leaf {e : LTy} {m : LMeta} (h : MOK e m) (he : e.isScalar = true) : m = .leaf := by
  cases h with
  | scalar => rfl
  | dim _ _ => simp [LTy.isScalar] at he
  | tup _ _ _ => simp [LTy.isScalar] at he

theorem leaf_off {t : LTy} {m : LMeta} {p : List Int} {o o' : Int} {s a : Nat} (h : Leaf t m p o s a) (e : o = o') :
    Leaf t m p o' s a := e ▸ h

theorem idxMeta_exact {idx : List IRange} {t : LTy} {m : LMeta} {rt : LTy} (hm : MOK t m)
    (hg : FieldRangeLast idx t) (h : idxTy idx t = .ok rt) :
    ∃ o m', idxMeta idx t m rt = .ok (o, m') ∧ IdxExact idx t m rt o m' := by
  induction idx generalizing t m rt with
  | nil =>
    simp only [idxTy, Res.ok.injEq] at h
    subst h
    refine ⟨0, m, by simp [idxMeta], hm, fun out off s a hl => ⟨out, .nil, leaf_off hl (by omega)⟩,
      fun src off s a hl _ => ⟨src, .nil, leaf_off hl (by omega)⟩⟩
  | cons r rs ih =>
    cases hm with
    | scalar => simp [idxTy] at h
    | @dim n e st me hn hme =>
      simp only [idxTy] at h
      rw [bind_eq_ok] at h
      obtain ⟨l, hl, h⟩ := h
      rw [bind_eq_ok] at h
      obtain ⟨e', he', h⟩ := h
      simp only [FieldRangeLast] at hg
      -- the recursive part, uniformly for scalar and non-scalar elements
      have key : ∃ o m', (if e.isScalar then (pure (0, .leaf) : Res (Int × LMeta)) else idxMeta rs e me e') = .ok (o, m') ∧
          IdxExact rs e me e' o m' := by
        by_cases hs : e.isScalar = true
        · obtain ⟨rfl, rfl⟩ := scalar_idx hs he'
          have hleaf := hme.scalar_leaf hs
          subst hleaf
          refine ⟨0, .leaf, by rw [if_pos hs]; rfl, hme, fun out off s a hl => ⟨out, .nil, leaf_off hl (by omega)⟩,
            fun src off s a hl _ => ⟨src, .nil, leaf_off hl (by omega)⟩⟩
        · rw [if_neg hs]; exact ih hme hg he'
      obtain ⟨o, m', hk, hM, hP, hC⟩ := key
      rcases lin_cases (Int.natCast_nonneg n) hn hl with ⟨k0, k1, k2, k3, k4⟩ | ⟨k0, k1, k2, k3, k4, k5⟩
      · rw [k1] at h
        simp only [if_true, pure_eq, Res.ok.injEq] at h
        subst h
        refine ⟨st * l.start + o, m', ?_, hM, ?_, ?_⟩
        · simp only [idxMeta, hl, bind_ok, k1, if_true]
          by_cases hs : e.isScalar = true
          · rw [if_pos hs] at hk ⊢
            simp only [pure_eq, Res.ok.injEq, Prod.mk.injEq] at hk ⊢
            obtain ⟨rfl, rfl⟩ := hk
            exact ⟨by omega, rfl⟩
          · rw [if_neg hs] at hk ⊢
            simp [hk]
        · intro out off s a hlf
          obtain ⟨src, h1, h2⟩ := hP out off s a hlf
          refine ⟨pyWrap n r.start :: src, .single k0 h1, ?_⟩
          rw [← k2]
          exact leaf_off (.dim k3 k4 h2) (by rw [Int.mul_comm]; omega)
        · intro src off s a hlf hch
          cases hch with
          | range hh _ _ => exact absurd k0 hh
          | @single _ _ _ _ src _ hch =>
            cases hlf with
            | dim h0 h1 hlf =>
              obtain ⟨out, h2, h3⟩ := hC _ _ _ _ hlf hch
              refine ⟨out, .single k0 h2, leaf_off h3 ?_⟩
              rw [← k2, Int.mul_comm]; omega
      · rw [k1] at h
        simp only [Bool.false_eq_true, if_false, pure_eq, Res.ok.injEq] at h
        subst h
        refine ⟨st * l.start + o, .dim l.size.toNat (st * l.stride) m', ?_, ?_, ?_, ?_⟩
        · simp only [idxMeta, hl, bind_ok, k1]
          have hsz : ((l.size.toNat : Nat) : Int) = l.size := Int.toNat_of_nonneg k2
          by_cases hs : e.isScalar = true
          · rw [if_pos hs] at hk
            simp only [pure_eq, Res.ok.injEq, Prod.mk.injEq] at hk
            obtain ⟨rfl, rfl⟩ := hk
            simp [hs, hsz]
          · rw [if_neg hs] at hk
            simp [hs, hk, hsz]
        · exact .dim (by rw [Int.toNat_of_nonneg k2]; exact k3) hM
        · intro out off s a hlf
          cases hlf with
          | @dim _ _ _ _ j _ p o' s a h0 h1 hlf =>
            obtain ⟨src, h2, h3⟩ := hP _ _ _ _ hlf
            rw [Int.toNat_of_nonneg k2] at h1
            obtain ⟨q0, q1, q2⟩ := k4 j h0 h1
            refine ⟨_, .range k0 h2, ?_⟩
            rw [← q0]
            refine leaf_off (.dim q1 q2 h3) ?_
            rw [Int.add_mul, Int.mul_comm l.start, Int.mul_assoc, Int.mul_comm l.stride]; omega
        · intro src off s a hlf hch
          cases hch with
          | single hh _ => exact absurd hh k0
          | range _ hsel hch =>
            cases hlf with
            | dim h0 h1 hlf =>
              obtain ⟨out, h2, h3⟩ := hC _ _ _ _ hlf hch
              obtain ⟨j, j0, j1, rfl⟩ := k5 _ hsel
              refine ⟨j :: out, ?_, ?_⟩
              · rw [(k4 j j0 j1).1]; exact .range k0 h2
              · refine leaf_off (.dim j0 (by rw [Int.toNat_of_nonneg k2]; exact j1) h3) ?_
                rw [Int.add_mul, Int.mul_comm l.start, Int.mul_assoc, Int.mul_comm l.stride]; omega
    | @tup fs ms hn hlen hms =>
      simp only [idxTy] at h
      rw [bind_eq_ok] at h
      obtain ⟨l, hl, h⟩ := h
      simp only [FieldRangeLast] at hg
      rcases lin_cases (Int.natCast_nonneg fs.length) hn hl with ⟨k0, k1, k2, k3, k4⟩ | ⟨k0, k1, k2, k3, k4, k5⟩
      · rw [k1] at h
        simp only [if_true] at h
        rw [bind_eq_ok] at h
        obtain ⟨f, hf, h⟩ := h
        obtain ⟨k, hk, hfk⟩ := getI_ok.1 hf
        have hmlt : k < ms.length := by rw [hlen]; exact (List.getElem?_eq_some_iff.1 hfk).1
        obtain ⟨⟨fo, mf⟩, hmk⟩ : ∃ x, ms[k]? = some x := ⟨_, List.getElem?_eq_getElem hmlt⟩
        have hmf := hms k f fo mf hfk hmk
        have hgm : getI ms l.start = .ok (fo, mf) := getI_ok.2 ⟨k, hk, hmk⟩
        have hgf : FieldRangeLast rs f := by
          rcases hg with ⟨_, hg⟩ | rfl
          · exact hg f (List.mem_of_getElem? hfk)
          · simp [FieldRangeLast]
        have key : ∃ o m', (if f.isScalar then (pure (0, .leaf) : Res (Int × LMeta)) else idxMeta rs f mf rt) = .ok (o, m') ∧
            IdxExact rs f mf rt o m' := by
          by_cases hs : f.isScalar = true
          · obtain ⟨rfl, rfl⟩ := scalar_idx hs h
            have hleaf := hmf.scalar_leaf hs
            subst hleaf
            refine ⟨0, .leaf, by rw [if_pos hs]; rfl, hmf, fun out off s a hl => ⟨out, .nil, leaf_off hl (by omega)⟩,
              fun src off s a hl _ => ⟨src, .nil, leaf_off hl (by omega)⟩⟩
          · rw [if_neg hs]; exact ih hmf hgf h
        obtain ⟨o, m', hkk, hM, hP, hC⟩ := key
        refine ⟨fo + o, m', ?_, hM, ?_, ?_⟩
        · simp only [idxMeta, hl, bind_ok, k1, if_true, hf, hgm]
          by_cases hs : f.isScalar = true
          · rw [if_pos hs] at hkk ⊢
            simp only [pure_eq, Res.ok.injEq, Prod.mk.injEq] at hkk ⊢
            obtain ⟨rfl, rfl⟩ := hkk
            exact ⟨by omega, rfl⟩
          · rw [if_neg hs] at hkk ⊢
            simp [hkk]
        · intro out off s a hlf
          obtain ⟨src, h1, h2⟩ := hP out off s a hlf
          exact ⟨(k : Int) :: src, .field k0 (by rw [hk, k2]) hfk h1, leaf_off (.tup hfk hmk h2) (by omega)⟩
        · intro src off s a hlf hch
          cases hch with
          | fields hh _ _ _ => exact absurd k0 hh
          | @field _ _ _ k' f' src _ hk' hf' hch =>
            have : k' = k := by omega
            subst this
            rw [hfk, Option.some.injEq] at hf'
            subst hf'
            cases hlf with
            | @tup _ _ i f2 fo2 mf2 p o2 s a e1 e2 hlf =>
              rw [hfk, Option.some.injEq] at e1
              rw [hmk, Option.some.injEq, Prod.mk.injEq] at e2
              obtain ⟨rfl, rfl⟩ := e2
              subst e1
              obtain ⟨out, h2, h3⟩ := hC _ _ _ _ hlf hch
              exact ⟨out, .field k0 hk' hfk h2, leaf_off h3 (by omega)⟩
      · have hrs : rs = [] := by
          rcases hg with ⟨h0, _⟩ | h0
          · exact absurd h0 k0
          · exact h0
        subst hrs
        rw [k1] at h
        simp only [Bool.false_eq_true, if_false] at h
        -- the result type: field i is source field start + i*stride
        have hrt : ∃ rfs, rt = .tup rfs ∧ rfs.length = l.size.toNat ∧
            ∀ (i : Nat) f, rfs[i]? = some f → ∃ k : Nat, (k : Int) = l.start + i * l.stride ∧ fs[k]? = some f := by
          by_cases hc : ([] : List IRange).isEmpty && l.start == 0 && l.stride == 1 && l.size == (fs.length : Int)
          · rw [if_pos hc] at h
            simp only [pure_eq, Res.ok.injEq] at h
            simp only [Bool.and_eq_true, beq_iff_eq] at hc
            obtain ⟨⟨⟨_, c1⟩, c2⟩, c3⟩ := hc
            refine ⟨fs, h.symm, by omega, fun i f hf => ⟨i, by rw [c1, c2]; omega, hf⟩⟩
          · rw [if_neg hc] at h
            rw [bind_eq_ok] at h
            obtain ⟨rfs, h1, h2⟩ := h
            simp only [pure_eq, Res.ok.injEq] at h2
            obtain ⟨t1, t2⟩ := tabulate_ok.1 h1
            refine ⟨rfs, h2.symm, t1, fun i f hf => ?_⟩
            have := t2 i f hf
            rw [bind_eq_ok] at this
            obtain ⟨f', h3, h4⟩ := this
            simp only [idxTy, Res.ok.injEq] at h4
            subst h4
            obtain ⟨k, hk, hk2⟩ := getI_ok.1 h3
            exact ⟨k, hk, hk2⟩
        obtain ⟨rfs, rfl, hrl, hrf⟩ := hrt
        have hstep : ∀ i < l.size.toNat, ∃ (k : Nat) (fo : Int) (mf : LMeta) (f : LTy), (k : Int) = l.start + i * l.stride ∧
            fs[k]? = some f ∧ ms[k]? = some (fo, mf) ∧ rfs[i]? = some f := by
          intro i hi
          have hi' : i < rfs.length := by omega
          obtain ⟨k, hk, hfk⟩ := hrf i _ (List.getElem?_eq_getElem hi')
          have hmlt : k < ms.length := by rw [hlen]; exact (List.getElem?_eq_some_iff.1 hfk).1
          refine ⟨k, ms[k].1, ms[k].2, rfs[i], hk, hfk, List.getElem?_eq_getElem hmlt, List.getElem?_eq_getElem hi'⟩
        -- one field of the result arrmeta
        have hone : ∀ i < l.size.toNat, ∀ (k : Nat) (fo : Int) (mf : LMeta), (k : Int) = l.start + i * l.stride →
            ms[k]? = some (fo, mf) →
            (do
              let (o, mf) ← getI ms (l.start + (i : Int) * l.stride)
              let ft ← getI rfs i
              if ft.isScalar then pure (o, LMeta.leaf)
              else do
                let (o2, m') ← idxMeta [] ft mf ft
                pure (o + o2, m') : Res (Int × LMeta)) = .ok (fo, mf) := by
          intro i hi k fo mf hk hmk
          obtain ⟨k', fo', mf', f, e1, e2, e3, e4⟩ := hstep i hi
          have : k' = k := by omega
          subst this
          rw [e3, Option.some.injEq, Prod.mk.injEq] at hmk
          obtain ⟨rfl, rfl⟩ := hmk
          rw [getI_ok.2 ⟨k', hk, e3⟩, bind_ok]
          simp only
          rw [getI_ok.2 ⟨i, rfl, e4⟩, bind_ok]
          by_cases hs : f.isScalar = true
          · rw [if_pos hs, (hms k' f fo' mf' e2 e3).scalar_leaf hs]; rfl
          · rw [if_neg hs]; simp [idxMeta]
        obtain ⟨mos, hmos⟩ := tabulate_total (n := l.size.toNat) (fun i hi => by
          obtain ⟨k, fo, mf, f, e1, e2, e3, e4⟩ := hstep i hi
          exact ⟨_, hone i hi k fo mf e1 e3⟩)
        obtain ⟨t1, t2⟩ := tabulate_ok.1 hmos
        have hget : ∀ (i : Nat) x, mos[i]? = some x → ∃ k : Nat, (k : Int) = l.start + i * l.stride ∧ ms[k]? = some x := by
          intro i x hx
          have hi : i < l.size.toNat := by have := (List.getElem?_eq_some_iff.1 hx).1; omega
          obtain ⟨k, fo, mf, f, e1, e2, e3, e4⟩ := hstep i hi
          have := t2 i x hx
          rw [hone i hi k fo mf e1 e3, Res.ok.injEq] at this
          exact ⟨k, e1, by rw [e3, this]⟩
        refine ⟨0, .tup mos, ?_, ?_, ?_, ?_⟩
        · rw [idxMeta, hl, bind_ok, if_neg (by rw [k1]; simp)]
          exact bind_eq_ok.2 ⟨mos, hmos, rfl⟩
        · refine .tup (by rw [hrl, Int.toNat_of_nonneg k2]; exact k3) (by omega) (fun i f o m h1 h2 => ?_)
          obtain ⟨k, e1, e2⟩ := hrf i f h1
          obtain ⟨k', e1', e2'⟩ := hget i _ h2
          have : k' = k := by omega
          subst this
          exact hms k' f o m e2 e2'
        · intro out off s a hlf
          cases hlf with
          | @tup _ _ i f fo mf p o s a h0 h1 hlf =>
            obtain ⟨k, e1, e2⟩ := hrf i f h0
            obtain ⟨k', e1', e2'⟩ := hget i _ h1
            have : k' = k := by omega
            subst this
            have hi : (i : Int) < l.size := by
              have := (List.getElem?_eq_some_iff.1 h0).1; omega
            have q := (k4 i (by omega) hi).1
            exact ⟨(k' : Int) :: p, .fields k0 (by rw [e1, q]) e2 .nil, leaf_off (.tup e2 e2' hlf) (by omega)⟩
        · intro src off s a hlf hch
          cases hch with
          | field hh _ _ _ => exact absurd hh k0
          | @fields _ _ _ k f src _ hsel hfk hch =>
            cases hlf with
            | @tup _ _ _ f2 fo2 mf2 p o2 s a e1 e2 hlf =>
              obtain ⟨j, j0, j1, hj⟩ := k5 _ hsel
              have hjn : ((j.toNat : Nat) : Int) = j := Int.toNat_of_nonneg j0
              have hlt : j.toNat < l.size.toNat := by omega
              obtain ⟨k', fo, mf, f', r1, r2, r3, r4⟩ := hstep j.toNat hlt
              rw [hjn] at r1
              have : k' = k := by omega
              subst this
              rw [e1, Option.some.injEq] at r2
              subst r2
              have hmj : ∃ x, mos[j.toNat]? = some x := ⟨_, List.getElem?_eq_getElem (by omega)⟩
              obtain ⟨x, hx⟩ := hmj
              obtain ⟨k'', s1, s2⟩ := hget _ _ hx
              rw [hjn] at s1
              have : k'' = k' := by omega
              subst this
              rw [e2, Option.some.injEq] at s2
              subst s2
              refine ⟨(j.toNat : Int) :: src, .fields k0 ?_ e1 .nil, leaf_off (.tup r4 hx hlf) (by omega)⟩
              rw [hjn, hj, (k4 j j0 j1).1]

/-- C64, partial (missing: a range of fields followed by further indices, where the code is wrong, see
    `field_range_then_index_violated`): indexing an array of nested fixed dimensions and tuples/structs
    succeeds in the arrmeta step whenever the type step does, and the result's scalars are exactly the scalars
    Python's `a[idx...]` designates, at their original addresses. -/
theorem nested_index_exact_partial {a : SArr} {idx : List IRange} {rt : LTy} (hm : MOK a.ty a.md)
    (hg : FieldRangeLast idx a.ty) (h : idxTy idx a.ty = .ok rt) :
    ∃ b, a.index idx = .ok b ∧ b.ty = rt ∧ MOK b.ty b.md ∧
      (∀ out o s al, Leaf b.ty b.md out o s al →
        ∃ src o', PicksT idx a.ty out src ∧ Leaf a.ty a.md src o' s al ∧ b.off + o = a.off + o') ∧
      (∀ src o' s al, Leaf a.ty a.md src o' s al → ChosenT idx src a.ty →
        ∃ out o, PicksT idx a.ty out src ∧ Leaf b.ty b.md out o s al ∧ b.off + o = a.off + o') := by
  obtain ⟨o, m', h1, hM, hP, hC⟩ := idxMeta_exact hm hg h
  refine ⟨⟨rt, m', a.off + o⟩, by simp [SArr.index, h, h1], rfl, hM, ?_, ?_⟩
  · intro out off s al hl
    obtain ⟨src, e1, e2⟩ := hP _ _ _ _ hl
    exact ⟨src, _, e1, e2, by simp only; omega⟩
  · intro src off s al hl hc
    obtain ⟨out, e1, e2⟩ := hC _ _ _ _ hl hc
    exact ⟨out, _, e1, e2, by simp only; omega⟩

/-- An array `2 * {x: 3 * int32, y: int64}` in its default layout. -/
def structSample : SArr :=
  ⟨.dim 2 (.tup [.dim 3 (.scalar 4 4), .scalar 8 8]),
   .dim 2 24 (.tup [(0, .dim 3 4 .leaf), (16, .leaf)]), 0⟩

/-- `a(1, 0, 2)` on it: row 1, field x, element 2 is at byte 32; the last field of row 1 at 40. -/
example : structSample.index [.single 1, .single 0, .single 2] = .ok ⟨.scalar 4 4, .leaf, 32⟩ ∧
    structSample.index [.single 1, .single (-1)] = .ok ⟨.scalar 8 8, .leaf, 40⟩ := by
  constructor <;> rfl

theorem structSample_ok : MOK structSample.ty structSample.md ∧
    FieldRangeLast [.single 1, .single 0, .single 2] structSample.ty := by
  refine ⟨.dim (by decide) (.tup (by decide) rfl (fun i f o m h1 h2 => ?_)), ?_⟩
  · match i with
    | 0 =>
      simp only [List.getElem?_cons_zero, Option.some.injEq, Prod.mk.injEq] at h1 h2
      obtain ⟨rfl, rfl⟩ := h2; subst h1
      exact .dim (by decide) .scalar
    | 1 =>
      simp only [List.getElem?_cons_succ, List.getElem?_cons_zero, Option.some.injEq, Prod.mk.injEq] at h1 h2
      obtain ⟨rfl, rfl⟩ := h2; subst h1
      exact .scalar
    | i + 2 => simp at h1
  · simp [FieldRangeLast, structSample, IRange.single]

/-- C64 violated: a range of fields followed by another index addresses the wrong elements.  On
    `{x: 3 * int32, y: 3 * int32}` (x at bytes 0..12, y at 12..24), `a(irange(), 1)` should give element 1 of
    each field (bytes 4 and 16); it gives bytes 0 and 12, i.e. element 0.  And `a(irange(), irange(2, 3))`,
    which selects the last element of each field, throws. -/
theorem field_range_then_index_violated :
    let a : SArr := ⟨.tup [.dim 3 (.scalar 4 4), .dim 3 (.scalar 4 4)],
      .tup [(0, .dim 3 4 .leaf), (12, .dim 3 4 .leaf)], 0⟩
    a.index [.full, .single 1] = .ok ⟨.tup [.scalar 4 4, .scalar 4 4], .tup [(0, .leaf), (12, .leaf)], 0⟩ ∧
    a.index [.full, ⟨2, 3, 1⟩] = .throw .irangeOutOfBounds ∧
    ¬ PicksT [.full, .single 1] a.ty [0] [0, 0] ∧ PicksT [.full, .single 1] a.ty [0] [0, 1] := by
  refine ⟨by rfl, by rfl, ?_, ?_⟩
  · intro h
    cases h with
    | field h _ _ _ => simp [IRange.full] at h
    | @fields _ _ _ _ _ f _ _ _ _ hf h =>
      have hq : ∀ (src : List Int), PicksT [.single 1] f [] src → src ≠ [0] := by
        intro src hp he
        cases hp with
        | single _ _ => simp [IRange.single, pyWrap] at he
        | field _ hk2 hf2 _ =>
          simp at hf
      exact hq _ h rfl
  · exact .fields (k := 0) (by simp [IRange.full]) (by simp [pyStart, IRange.startOpt, IRange.full])
      rfl (.single (by simp [IRange.single]) .nil)

/-- Field lookup by name (used by `get_field_index`, property access `a.p("name")`): the result is the first
    field with that name, or -1 when there is none. -/
theorem field_index_exact (names : List String) (name : String) :
    (∀ i : Nat, getFieldIndex names name = i ↔ names[i]? = some name ∧ ∀ j < i, names[j]? ≠ some name) ∧
    (getFieldIndex names name = -1 ↔ name ∉ names) := by
  have gen : ∀ (names : List String) (k : Nat), (getFieldIndexFrom k name names = -1 ∧ name ∉ names) ∨
      ∃ i : Nat, getFieldIndexFrom k name names = (k + i : Nat) ∧ names[i]? = some name ∧ ∀ j < i, names[j]? ≠ some name := by
    intro names
    induction names with
    | nil => intro k; left; simp [getFieldIndexFrom]
    | cons n ns ih =>
      intro k
      by_cases hn : n = name
      · right; exact ⟨0, by simp [getFieldIndexFrom, hn], by simp [hn], by omega⟩
      · rcases ih (k + 1) with ⟨h1, h2⟩ | ⟨i, h1, h2, h3⟩
        · left; exact ⟨by simp [getFieldIndexFrom, hn, h1], by simp [h2, Ne.symm hn]⟩
        · right
          refine ⟨i + 1, by simp [getFieldIndexFrom, hn, h1]; omega, by simpa using h2, fun j hj => ?_⟩
          cases j with
          | zero => simpa using hn
          | succ j => simpa using h3 j (by omega)
  rcases gen names 0 with ⟨h1, h2⟩ | ⟨i, h1, h2, h3⟩
  · refine ⟨fun i => ?_, ?_⟩
    · rw [getFieldIndex, h1]
      constructor
      · intro h; omega
      · rintro ⟨h, _⟩; exact absurd (List.mem_of_getElem? h) h2
    · rw [getFieldIndex, h1]; simp [h2]
  · rw [Nat.zero_add] at h1
    refine ⟨fun k => ?_, ?_⟩
    · rw [getFieldIndex, h1]
      constructor
      · intro h
        have : i = k := by omega
        subst this; exact ⟨h2, h3⟩
      · rintro ⟨g1, g2⟩
        rcases Nat.lt_trichotomy i k with h | h | h
        · exact absurd h2 (g2 i h)
        · omega
        · exact absurd g1 (h3 k h)
    · rw [getFieldIndex, h1]
      constructor
      · intro h; omega
      · intro h; exact absurd (List.mem_of_getElem? h2) h

/-- With distinct names every field is found under its own name. -/
theorem field_index_distinct {names : List String} (hd : names.Nodup) {i : Nat} {name : String}
    (h : names[i]? = some name) : getFieldIndex names name = i := by
  rw [(field_index_exact names name).1]
  refine ⟨h, fun j hj hj' => ?_⟩
  obtain ⟨h1, h2⟩ := List.getElem?_eq_some_iff.1 h
  obtain ⟨h3, h4⟩ := List.getElem?_eq_some_iff.1 hj'
  exact absurd ((List.Nodup.getElem_inj_iff hd).1 (h4.trans h2.symm)) (by omega)

/-- Struct types accept duplicate names; the second field is then unreachable by name. -/
theorem field_index_duplicate_violated : getFieldIndex ["x", "x"] "x" = 0 ∧ ["x", "x"][1]? = some "x" := by decide

end Dynd
