/-
C122: the loop of a masked take.
-/
import Verif.Model.TakeRun
import Verif.Props.KernelProps
import Verif.Props.CopySteps

namespace Dynd

/-- `n` addresses `st` apart -/
def addrs (st : Int) : Nat → Int → List Int
  | 0, _ => []
  | n + 1, a => a :: addrs st n (a + st)

theorem addrs_length (st : Int) : ∀ n a, (addrs st n a).length = n
  | 0, _ => rfl
  | n + 1, a => by simp [addrs, addrs_length st n]

theorem addrs_append (st : Int) : ∀ (n k : Nat) (a : Int), addrs st (n + k) a = addrs st n a ++ addrs st k (a + n * st)
  | 0, k, a => by simp [addrs]
  | n + 1, k, a => by
    rw [show n + 1 + k = (n + k) + 1 by omega]
    simp only [addrs, List.cons_append]
    rw [addrs_append st n k]
    congr 3
    rw [Int.natCast_add, Int.add_mul]
    omega

/-- the kernel run for a list of source addresses -/
def runList {β : Type} (body : Int → Int → UDst β → Res (UDst β)) (st : Int) : List Int → Int → UDst β → Res (UDst β)
  | [], _, m => .ok m
  | s :: l, d, m => do
    let m' ← body d s m
    runList body st l (d + st) m'

section
variable {β : Type} {body : Int → Int → UDst β → Res (UDst β)}

theorem runList_append (st : Int) : ∀ (l l' : List Int) (d : Int) (m : UDst β),
    runList body st (l ++ l') d m = (runList body st l d m).bind fun m' => runList body st l' (d + l.length * st) m'
  | [], l', d, m => by simp [runList, Res.bind]
  | s :: l, l', d, m => by
    simp only [List.cons_append, runList]
    cases e : body d s m with
    | throw c => rfl
    | ub => rfl
    | ok m' =>
      rw [Res.bind_ok, Res.bind_ok, runList_append st l l']
      congr 2
      funext m''
      congr 1
      simp only [List.length_cons, Int.natCast_add, Int.add_mul]
      omega

theorem uLoop_list (st t : Int) : ∀ (n : Nat) (d s : Int) (m : UDst β), uLoop body n st t d s m = runList body st (addrs t n s) d m
  | 0, _, _, _ => rfl
  | n + 1, d, s, m => by
    simp only [uLoop, addrs, runList]
    cases e : body d s m with
    | throw c => rfl
    | ub => rfl
    | ok m' => rw [Res.bind_ok, Res.bind_ok, uLoop_list st t n]

/-- a loop over a list is a loop over the positions in it -/
theorem list_uLoop (st : Int) (at_ : Int → Int) : ∀ (l : List Int) (k : Int) (d : Int) (m : UDst β),
    (∀ (j : Nat) x, l[j]? = some x → at_ (k + j) = x) →
    runList body st l d m = uLoop (fun d i m => body d (at_ i) m) l.length st 1 d k m
  | [], _, _, _, _ => rfl
  | s :: l, k, d, m, h => by
    have h0 : at_ k = s := by have := h 0 s rfl; simpa using this
    simp only [runList, List.length_cons, uLoop, h0]
    cases e : body d s m with
    | throw c => rfl
    | ub => rfl
    | ok m' =>
      rw [Res.bind_ok, Res.bind_ok]
      refine list_uLoop st at_ l (k + 1) (d + st) m' fun j x hj => ?_
      have := h (j + 1) x (by simpa using hj)
      rw [← this]
      congr 1
      omega

end

/-! ### The mask -/

theorem maskWalk_ok (nonzero : Bool) {mask : Int → Option UInt8} {mst : Int} {n : Nat} : ∀ (fuel r i : Nat) (a : Int) (bs : List UInt8),
    viewList mask mst r a = some bs → n = i + r → r < fuel →
    ∃ ys zs, bs = ys ++ zs ∧ (∀ b ∈ ys, (b != 0) = nonzero) ∧ (∀ b, zs.head? = some b → (b != 0) = !nonzero) ∧
      maskWalk nonzero mask mst n fuel i a = .ok (i + ys.length, a + ys.length * mst) ∧
      viewList mask mst (r - ys.length) (a + ys.length * mst) = some zs
  | 0, _, _, _, _, _, _, h => by omega
  | fuel + 1, 0, i, a, bs, hv, hn, _ => by
    simp only [viewList, Option.some.injEq] at hv
    subst hv
    refine ⟨[], [], rfl, by simp, by simp, ?_, by simp [viewList]⟩
    rw [maskWalk, if_neg (by omega)]
    simp
  | fuel + 1, r + 1, i, a, bs, hv, hn, hf => by
    have hv0 := hv
    simp only [viewList, Option.bind_eq_some_iff, Option.map_eq_some_iff] at hv
    obtain ⟨b, hb, cs, hc, rfl⟩ := hv
    rw [maskWalk, if_pos (by omega), hb]
    simp only []
    by_cases hz : (b != 0) = nonzero
    · rw [if_pos hz]
      obtain ⟨ys, zs, e1, e2, e3, e4, e5⟩ := maskWalk_ok nonzero (mask := mask) (mst := mst) (n := n) fuel r (i + 1) (a + mst) cs hc (by omega) (by omega)
      have el : a + mst + (ys.length : Int) * mst = a + ((b :: ys).length : Int) * mst := by
        simp only [List.length_cons, Int.natCast_add, Int.add_mul]; omega
      refine ⟨b :: ys, zs, by rw [e1]; rfl, ?_, e3, ?_, ?_⟩
      · intro c hc
        rcases List.mem_cons.1 hc with rfl | hc
        · exact hz
        · exact e2 c hc
      · rw [e4, el]
        simp only [List.length_cons]
        rw [show i + 1 + ys.length = i + (ys.length + 1) by omega]
      · rw [← el, ← e5]
        simp
    · rw [if_neg hz]
      refine ⟨[], b :: cs, rfl, by simp, ?_, by simp, by simpa using hv0⟩
      intro c hc
      simp only [List.head?_cons, Option.some.injEq] at hc
      subst hc
      revert hz
      cases (b != 0) <;> cases nonzero <;> simp

theorem viewList_split {γ : Type} {view : Int → Option γ} {st : Int} : ∀ (n k : Nat) (a : Int) (xs : List γ),
    viewList view st (n + k) a = some xs → ∃ ys zs, xs = ys ++ zs ∧ viewList view st n a = some ys ∧ viewList view st k (a + n * st) = some zs
  | 0, k, a, xs, h => ⟨[], xs, rfl, rfl, by simpa using h⟩
  | n + 1, k, a, xs, h => by
    rw [show n + 1 + k = (n + k) + 1 by omega] at h
    simp only [viewList, Option.bind_eq_some_iff, Option.map_eq_some_iff] at h
    obtain ⟨x, hx, ys, hy, rfl⟩ := h
    obtain ⟨us, vs, rfl, h1, h2⟩ := viewList_split n k (a + st) ys hy
    refine ⟨x :: us, vs, rfl, by simp [viewList, hx, h1], ?_⟩
    rw [← h2]
    congr 1
    rw [Int.natCast_add, Int.add_mul]
    omega

/-- the whole loop: the kernel is run for the addresses of the selected elements -/
theorem takeLoop_ok {β : Type} (body : Int → Int → UDst β → Res (UDst β)) {mask : Int → Option UInt8} {mst sst dst : Int} {n : Nat} :
    ∀ (fuel r i : Nat) (s a d : Int) (cnt : Nat) (m : UDst β) (bs : List UInt8),
    viewList mask mst r a = some bs → n = i + r → r < fuel →
    takeLoop body mask mst sst dst n fuel i s a d cnt m =
      (runList body dst (selected (addrs sst r s) bs) d m).bind fun m' => .ok (m', cnt + (selected (addrs sst r s) bs).length)
  | 0, _, _, _, _, _, _, _, _, _, _, h => by omega
  | fuel + 1, 0, i, s, a, d, cnt, m, bs, hv, hn, _ => by
    rw [takeLoop, if_neg (by omega)]
    simp [addrs, selected, runList, Res.bind]
  | fuel + 1, r + 1, i, s, a, d, cnt, m, bs, hv, hn, hf => by
    rw [takeLoop, if_pos (by omega)]
    obtain ⟨ys, zs, rfl, hy, hz, e1, hzv⟩ := maskWalk_ok false (mask := mask) (mst := mst) (n := n) (n + 1) (r + 1) i a bs hv hn (by omega)
    have hl := viewList_length hv
    simp only [List.length_append] at hl
    obtain ⟨us, vs, rfl, hu, hw, e2, hvv⟩ := maskWalk_ok true (mask := mask) (mst := mst) (n := n) (n + 1) (r + 1 - ys.length)
      (i + ys.length) (a + ys.length * mst) zs hzv (by omega) (by omega)
    simp only [List.length_append] at hl
    rw [e1, Res.bind_ok]
    simp only []
    rw [e2, Res.bind_ok]
    simp only []
    rw [show i + ys.length - i = ys.length by omega, show i + ys.length + us.length - (i + ys.length) = us.length by omega]
    have hsel : selected (addrs sst (r + 1) s) (ys ++ (us ++ vs)) =
        addrs sst us.length (s + ys.length * sst) ++ selected (addrs sst vs.length (s + ys.length * sst + us.length * sst)) vs := by
      rw [show r + 1 = ys.length + (us.length + vs.length) by omega, addrs_append, addrs_append,
        selected_append (addrs_length _ _ _), selected_append (addrs_length _ _ _), selected_none hy,
        selected_all (addrs_length _ _ _) hu]
      rfl
    rw [show r + 1 - ys.length - us.length = vs.length by omega] at hvv
    rw [hsel]
    have hpos : ys = [] → us ≠ [] := by
      intro h1 h2
      subst h1 h2
      simp only [List.length_nil, Nat.zero_add, List.nil_append] at hl hz hw
      cases vs with
      | nil => simp at hl
      | cons b vs =>
        have p := hz b rfl
        have q := hw b rfl
        rw [p] at q
        cases q
    by_cases hc : us = []
    · subst hc
      have : ys.length ≠ 0 := fun h => hpos (List.length_eq_zero_iff.1 h) rfl
      rw [if_neg (by simp)]
      have ih := takeLoop_ok (n := n) body (mask := mask) (mst := mst) (sst := sst) (dst := dst) fuel vs.length (i + ys.length + 0) (s + ys.length * sst)
        (a + ys.length * mst + (([] : List UInt8).length : Int) * mst) d cnt m vs hvv (by simp at hl; omega) (by simp at hl; omega)
      simp only [List.length_nil, addrs, List.nil_append]
      rw [show s + (ys.length : Int) * sst + ((0 : Nat) : Int) * sst = s + ys.length * sst by simp]
      exact ih
    · have : us.length ≠ 0 := fun h => hc (List.length_eq_zero_iff.1 h)
      rw [if_pos (by omega), uLoop_list, runList_append]
      cases e : runList body dst (addrs sst us.length (s + ys.length * sst)) d m with
      | throw c => rfl
      | ub => rfl
      | ok m1 =>
        rw [Res.bind_ok]
        simp only [Res.bind]
        rw [takeLoop_ok (n := n) body (mask := mask) (mst := mst) (sst := sst) (dst := dst) fuel vs.length _ _ _ _ _ m1 vs hvv (by omega) (by omega)]
        simp only [List.length_append, addrs_length, Nat.add_assoc]
        rfl

end Dynd
