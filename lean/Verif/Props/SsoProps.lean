import Verif.Model.Sso
import Mathlib.Tactic.SplitIfs
import Mathlib.Data.List.GetD
import Mathlib.Data.List.TakeDrop
/-
C21: byte strings behave like byte sequences.
-/
namespace Dynd
open SBytes

/-- Specification of the operations on plain byte lists (named by numbers). -/
def SOp.Spec (a : Nat → List Nat) : SOp → (Nat → List Nat) → Prop
  | .construct i data, a' => a' = setObj a i data
  | .assign i data, a' => a' = setObj a i data
  | .copy i j, a' => a' = setObj a i (a j)
  | .move i j, a' => a' = setObj (setObj a i (a j)) j []
  | .clear i, a' => a' = setObj a i []
  | .reserve _ _, a' => a' = a
  | .resize i n, a' => ∃ tail, ((a i).take n ++ tail).length = n ∧ a' = setObj a i ((a i).take n ++ tail)
  | .append i data, a' => a' = setObj a i (a i ++ data)
  | .appendFrom i j, a' => a' = setObj a i (a i ++ a j)
  | .plus k i j, a' => a' = setObj a k (a i ++ a j)

/-- A history on plain byte lists. -/
def SpecRun (a : Nat → List Nat) : List SOp → (Nat → List Nat) → Prop
  | [], a' => a' = a
  | o :: os, a' => ∃ b, o.Spec a b ∧ SpecRun b os a'

/-- Excluded operations: appending an object to itself, and resizing a string that stays inside the object to a size whose bits
    do not include those of its present size. -/
def SOp.Allowed (pad : Nat) (m : Nat → SBytes) : SOp → Prop
  | .appendFrom i j => i ≠ j
  | .resize i n => ssoCap pad < (m i).capacity pad ∨ ssoCap pad < n ∨ (m i).size ||| n = n
  | _ => True

/-- Every operation of the history is allowed when it is executed. -/
def AllowedRun (pad : Nat) (junk : Nat → Nat) (m : Nat → SBytes) : List SOp → Prop
  | [] => True
  | o :: os => o.Allowed pad m ∧ ∀ m', o.run pad junk m = .ok m' → AllowedRun pad junk m' os

/-- Representation invariant. -/
def SBytes.WF (pad : Nat) : SBytes → Prop
  | inl raw => raw.length = 16 ∧ raw.getD 15 0 ≤ ssoCap pad ∧ ∀ k, raw.getD 15 0 ≤ k → k < 15 → raw.getD k 0 = 0
  | heap cap size buf => ssoCap pad < cap ∧ size ≤ cap ∧ buf.length = cap + pad ∧ (pad ≠ 0 → buf.getD size 0 = 0)

private theorem size_le_mem {pad : Nat} (hp : pad ≤ 1) {s : SBytes} (h : s.WF pad) : s.size + pad ≤ s.mem.length := by
  cases s with
  | inl raw => simp only [SBytes.WF, ssoCap, size, mem] at *; omega
  | heap cap size buf => simp only [SBytes.WF, SBytes.size, mem] at *; omega

private theorem contents_length {pad : Nat} (hp : pad ≤ 1) {s : SBytes} (h : s.WF pad) : s.contents.length = s.size := by
  have := size_le_mem hp h
  simp [contents]; omega

private theorem poke_ok {buf : List Nat} {k : Nat} {d : List Nat} (h : k + d.length ≤ buf.length) :
    poke buf k d = .ok (buf.take k ++ d ++ buf.drop (k + d.length)) := by
  simp [poke, h]

private theorem getD_poke {buf : List Nat} {k : Nat} {d : List Nat} (h : k + d.length ≤ buf.length) (i : Nat) :
    (buf.take k ++ d ++ buf.drop (k + d.length)).getD i 0 =
      if i < k then buf.getD i 0 else if i < k + d.length then d.getD (i - k) 0 else buf.getD i 0 := by
  have hl : (buf.take k).length = k := by simp; omega
  split_ifs with h1 h2
  · rw [List.append_assoc, List.getD_append _ _ _ _ (by omega)]
    simp [List.getD_eq_getElem?_getD, List.getElem?_take, h1]
  · rw [List.append_assoc, List.getD_append_right _ _ _ _ (by omega), hl, List.getD_append _ _ _ _ (by omega)]
  · rw [List.getD_append_right _ _ _ _ (by simp; omega)]
    simp only [List.length_append, hl]
    simp [List.getD_eq_getElem?_getD, List.getElem?_drop]
    congr 2; omega

private theorem length_poke {buf : List Nat} {k : Nat} {d : List Nat} (h : k + d.length ≤ buf.length) :
    (buf.take k ++ d ++ buf.drop (k + d.length)).length = buf.length := by
  simp; omega

private theorem ssoAssign_getD (data : List Nat) (h : data.length ≤ 15) (k : Nat) :
    (data ++ List.replicate (15 - data.length) 0 ++ [data.length]).getD k 0 =
      if k < data.length then data.getD k 0 else if k < 15 then 0 else if k = 15 then data.length else 0 := by
  split_ifs with h1 h2 h3
  · rw [List.append_assoc, List.getD_append _ _ _ _ h1]
  · rw [List.append_assoc, List.getD_append_right _ _ _ _ (by omega), List.getD_append _ _ _ _ (by simp; omega), List.getD_replicate _ (by omega)]
  · subst h3
    rw [List.getD_append_right _ _ _ _ (by simp; omega)]
    simp [show data.length + (15 - data.length) = 15 by omega]
  · rw [List.getD_eq_default _ _ (by simp; omega)]

private theorem ssoAssign_spec (pad : Nat) (data : List Nat) (h : data.length ≤ ssoCap pad) :
    (ssoAssign data).WF pad ∧ (ssoAssign data).contents = data := by
  have h15 : data.length ≤ 15 := by unfold ssoCap at h; omega
  have e15 : (data ++ List.replicate (15 - data.length) 0 ++ [data.length]).getD 15 0 = data.length := by
    rw [ssoAssign_getD _ h15]; simp; omega
  constructor
  · simp only [ssoAssign, SBytes.WF]
    rw [e15]
    refine ⟨by simp; omega, h, ?_⟩
    intro k k1 k2
    rw [ssoAssign_getD _ h15, if_neg (by omega), if_pos k2]
  · simp only [ssoAssign, contents, size, mem, e15]
    rw [List.append_assoc, List.take_left]

private theorem heapAssign_spec (pad : Nat) (hp : pad ≤ 1) (data : List Nat) (h : ssoCap pad < data.length) :
    (heapAssign pad data).WF pad ∧ (heapAssign pad data).contents = data := by
  constructor
  · simp only [heapAssign, SBytes.WF]
    refine ⟨h, Nat.le_refl _, ?_, ?_⟩
    · split_ifs <;> simp <;> omega
    · intro h0
      rw [if_pos h0, List.getD_append_right _ _ _ _ (Nat.le_refl _)]; simp
  · simp [heapAssign, contents, size, mem]

private theorem empty_spec (pad : Nat) : SBytes.empty.WF pad ∧ SBytes.empty.contents = [] := by
  have e : ∀ k, (List.replicate 16 (0 : Nat)).getD k 0 = 0 := by
    intro k
    by_cases h : k < 16
    · exact List.getD_replicate _ h
    · exact List.getD_eq_default _ _ (by rw [List.length_replicate]; omega)
  constructor
  · simp only [SBytes.empty, SBytes.WF, e]
    exact ⟨by simp, by omega, by simp⟩
  · simp only [SBytes.empty, contents, size, mem, e, List.take_zero]

private theorem ofBytes_spec (pad : Nat) (hp : pad ≤ 1) (data : List Nat) : (ofBytes pad data).WF pad ∧ (ofBytes pad data).contents = data := by
  unfold ofBytes
  split_ifs with h
  · exact ssoAssign_spec pad data h
  · exact heapAssign_spec pad hp data (by omega)

private theorem assign_spec (pad : Nat) (hp : pad ≤ 1) (s : SBytes) (hs : s.WF pad) (data : List Nat) :
    ∃ s', s.assign pad data = .ok s' ∧ s'.WF pad ∧ s'.contents = data := by
  cases s with
  | inl raw =>
    simp only [SBytes.assign]
    split_ifs with h
    · exact ⟨_, rfl, ssoAssign_spec pad data h⟩
    · exact ⟨_, rfl, heapAssign_spec pad hp data (by omega)⟩
  | heap cap size buf =>
    simp only [SBytes.assign]
    obtain ⟨h1, h2, h3, h4⟩ := hs
    by_cases hc : data.length ≤ cap
    · rw [if_pos hc, poke_ok (by omega)]
      simp only [Res.bind_ok, terminate]
      by_cases h0 : pad ≠ 0
      · have hl : (buf.take 0 ++ data ++ buf.drop (0 + data.length)).length = buf.length := length_poke (by omega)
        have hb : data.length + [0].length ≤ (buf.take 0 ++ data ++ buf.drop (0 + data.length)).length := by rw [hl]; simp; omega
        rw [if_pos h0, poke_ok hb]
        refine ⟨_, rfl, ⟨h1, hc, by rw [length_poke hb, hl]; exact h3, ?_⟩, ?_⟩
        · intro _
          rw [getD_poke hb]; simp
        · simp only [contents, SBytes.size, mem]
          rw [List.append_assoc, List.take_append_of_le_length (by simp)]
          simp
      · have : pad = 0 := by omega
        subst this
        rw [if_neg (by omega)]
        refine ⟨_, rfl, ⟨h1, hc, by rw [length_poke (by omega)]; exact h3, by simp⟩, ?_⟩
        simp [contents, SBytes.size, mem]
    · rw [if_neg hc]
      exact ⟨_, rfl, heapAssign_spec pad hp data (by unfold ssoCap at *; omega)⟩

private theorem reserve_spec (pad : Nat) (hp : pad ≤ 1) (junk : Nat → Nat) (s : SBytes) (hs : s.WF pad) (n : Nat) :
    ∃ s', s.reserve pad junk n = .ok s' ∧ s'.WF pad ∧ s'.contents = s.contents ∧ s'.size = s.size ∧ n ≤ s'.capacity pad ∧
      (s.capacity pad < n → s'.capacity pad = n) ∧ (n ≤ s.capacity pad → s' = s) := by
  unfold SBytes.reserve
  have hm := size_le_mem hp hs
  split_ifs with h
  · have hcap : ssoCap pad < n := by
      cases s with
      | inl raw => exact h
      | heap cap size buf => have := hs.1; simp only [SBytes.capacity] at h; omega
    have hsc : s.size ≤ s.capacity pad := by
      cases s with
      | inl raw => exact hs.2.1
      | heap cap size buf => exact hs.2.1
    rw [peek, if_pos hm]
    simp only [Res.bind_ok]
    have hl : (s.mem.take (s.size + pad)).length = s.size + pad := by simp; omega
    have hb : 0 + (s.mem.take (s.size + pad)).length ≤ ((List.range (n + pad)).map junk).length := by rw [hl]; simp; omega
    rw [poke_ok hb]
    refine ⟨_, rfl, ⟨hcap, by omega, by rw [length_poke hb]; simp, ?_⟩, ?_, rfl, Nat.le_refl _, fun _ => rfl, fun h' => by omega⟩
    · intro h0
      rw [getD_poke hb, if_neg (by omega), if_pos (by rw [hl]; omega)]
      have : (s.mem.take (s.size + pad)).getD (s.size - 0) 0 = s.mem.getD s.size 0 := by
        rw [List.getD_eq_getElem?_getD, List.getElem?_take_of_lt (by omega), List.getD_eq_getElem?_getD]
        rfl
      rw [this]
      cases s with
      | inl raw =>
        have := hs.2.1
        simp only [ssoCap] at this
        exact hs.2.2 _ (Nat.le_refl _) (by simp only [SBytes.size]; omega)
      | heap cap size buf => exact hs.2.2.2 h0
    · change (List.take 0 _ ++ _ ++ _).take s.size = s.mem.take s.size
      rw [List.take_zero, List.nil_append, List.take_append_of_le_length (by rw [hl]; omega), List.take_take, Nat.min_eq_left (by omega)]
  · exact ⟨s, rfl, hs, rfl, rfl, by omega, fun h' => absurd h' h, fun _ => rfl⟩

private theorem resize_heap_spec (pad : Nat) (hp : pad ≤ 1) (cap size n : Nat) (buf : List Nat) (hs : (heap cap size buf).WF pad) (hn : n ≤ cap) :
    ∃ b, terminate pad buf n = .ok b ∧ (heap cap n b).WF pad ∧ b.take n = buf.take n := by
  obtain ⟨h1, h2, h3, h4⟩ := hs
  unfold terminate
  by_cases h0 : pad ≠ 0
  · have hb : n + [0].length ≤ buf.length := by simp; omega
    rw [if_pos h0, poke_ok hb]
    refine ⟨_, rfl, ⟨h1, hn, by rw [length_poke hb]; exact h3, ?_⟩, ?_⟩
    · intro _; rw [getD_poke hb]; simp
    · rw [List.append_assoc, List.take_append_of_le_length (by simp; omega), List.take_take]; simp
  · rw [if_neg h0]
    exact ⟨buf, rfl, ⟨h1, hn, h3, fun h => absurd h h0⟩, rfl⟩

/-- `resize`: preserves the prefix in all the allowed cases. -/
private theorem resize_spec (pad : Nat) (hp : pad ≤ 1) (junk : Nat → Nat) (s : SBytes) (hs : s.WF pad) (n : Nat)
    (ha : ssoCap pad < s.capacity pad ∨ ssoCap pad < n ∨ s.size ||| n = n) :
    ∃ s', s.resize pad junk n = .ok s' ∧ s'.WF pad ∧ s'.size = n ∧ s'.contents.take s.size = s.contents.take n ∧
      s'.capacity pad = max n (s.capacity pad) := by
  obtain ⟨r, e, hr, hc, hz, hcap, hcap2, hcap3⟩ := reserve_spec pad hp junk s hs n
  have hcm : r.capacity pad = max n (s.capacity pad) := by
    by_cases h : s.capacity pad < n
    · rw [hcap2 h]; omega
    · rw [hcap3 (by omega)]; omega
  unfold SBytes.resize
  rw [e]
  simp only [Res.bind_ok]
  cases r with
  | inl raw =>
    simp only
    have hs' : s = inl raw := by
      by_cases h : s.capacity pad < n
      · have := hcap2 h
        exfalso
        have h3 : ssoCap pad ≤ s.capacity pad := by
          cases s with
          | inl raw => exact Nat.le_refl _
          | heap cap size buf => exact Nat.le_of_lt hs.1
        simp only [SBytes.capacity] at this
        omega
      · exact (hcap3 (by omega)).symm
    subst hs'
    simp only [SBytes.capacity, Nat.lt_irrefl, false_or] at ha hcap
    obtain ⟨h1, h2, h3⟩ := hs
    have hor : raw.getD 15 0 ||| n = n := by
      rcases ha with ha | ha
      · omega
      · exact ha
    have hle : raw.getD 15 0 ≤ n := by rw [← hor]; exact Nat.left_le_or
    simp only [ssoCap] at hcap h2
    have hb : 15 + [raw.getD 15 0 ||| n].length ≤ raw.length := by simp; omega
    rw [poke_ok hb]
    simp only [Res.bind_ok]
    have hl := length_poke hb
    have hg := getD_poke hb
    generalize (raw.take 15 ++ [raw.getD 15 0 ||| n] ++ raw.drop (15 + [raw.getD 15 0 ||| n].length)) = raw1 at hl hg ⊢
    have hb2 : n + (List.replicate (15 - n) 0).length ≤ raw1.length := by simp; omega
    rw [poke_ok hb2]
    have hl2 := length_poke hb2
    have hg2 := getD_poke hb2
    have e15 : (raw1.take n ++ List.replicate (15 - n) 0 ++ raw1.drop (n + (List.replicate (15 - n) 0).length)).getD 15 0 = n := by
      rw [hg2, if_neg (by omega), if_neg (by simp; omega), hg, if_neg (by omega), if_pos (by simp)]; exact hor
    refine ⟨_, rfl, ⟨by rw [hl2, hl]; exact h1, ?_, ?_⟩, ?_, ?_, ?_⟩
    · rw [e15]; simp only [ssoCap]; omega
    · intro k k1 k2
      rw [e15] at k1
      rw [hg2, if_neg (by omega), if_pos (by simp; omega), List.getD_replicate _ (by omega)]
    · simp only [SBytes.size]; exact e15
    · simp only [contents, SBytes.size, mem, e15]
      rw [List.take_take, List.take_take, Nat.min_eq_left hle, Nat.min_eq_right hle]
      apply List.ext_getElem
      · simp; omega
      · intro k k1 k2
        simp only [List.length_take] at k1 k2
        simp only [List.getElem_take]
        rw [← List.getD_eq_getElem _ 0, ← List.getD_eq_getElem _ 0, hg2, if_pos (by omega), hg, if_pos (by omega)]
    · simp only [SBytes.capacity, ssoCap]; omega
  | heap cap size buf =>
    simp only
    simp only [SBytes.capacity] at hcap hcm
    obtain ⟨b, eb, hb, ht⟩ := resize_heap_spec pad hp cap size n buf hr hcap
    rw [eb]
    refine ⟨_, rfl, hb, rfl, ?_, hcm⟩
    rw [← hc, ← hz]
    simp only [contents, SBytes.size, mem]
    rw [ht, List.take_take, List.take_take, Nat.min_comm]

private theorem grow_heap (pad : Nat) (hp : pad ≤ 1) (s : SBytes) (hs : s.WF pad) (n : Nat) :
    s.capacity pad < max n (s.capacity pad * 3 / 2) ∧ ssoCap pad < max n (s.capacity pad * 3 / 2) := by
  have h3 : ssoCap pad ≤ s.capacity pad := by
    cases s with
    | inl raw => exact Nat.le_refl _
    | heap cap size buf => exact Nat.le_of_lt hs.1
  simp only [ssoCap] at h3 ⊢
  omega

private theorem pokeData_spec (pad : Nat) (s : SBytes) (hs : s.WF pad) (k : Nat) (d : List Nat) (hk : k + d.length ≤ s.size) :
    ∃ s', s.pokeData k d = .ok s' ∧ s'.WF pad ∧ s'.size = s.size ∧ s'.contents = s.contents.take k ++ d ++ s.contents.drop (k + d.length) := by
  have key : ∀ (buf : List Nat) (z : Nat), k + d.length ≤ z → z ≤ buf.length →
      (buf.take k ++ d ++ buf.drop (k + d.length)).take z = (buf.take z).take k ++ d ++ (buf.take z).drop (k + d.length) := by
    intro buf z h1 h2
    rw [List.take_take, Nat.min_eq_left (by omega), List.take_append, List.take_of_length_le (by simp; omega), List.drop_take]
    congr 2
    simp; omega
  cases s with
  | inl raw =>
    obtain ⟨h1, h2, h3⟩ := hs
    simp only [SBytes.size] at hk
    simp only [ssoCap] at h2
    have hb : k + d.length ≤ raw.length := by omega
    simp only [pokeData, poke_ok hb, Res.bind_ok, Res.pure_eq]
    have e15 : (raw.take k ++ d ++ raw.drop (k + d.length)).getD 15 0 = raw.getD 15 0 := by
      rw [getD_poke hb, if_neg (by omega), if_neg (by omega)]
    refine ⟨_, rfl, ⟨by rw [length_poke hb]; exact h1, by rw [e15]; exact h2, ?_⟩, by simp only [SBytes.size]; exact e15, ?_⟩
    · intro j j1 j2
      rw [e15] at j1
      rw [getD_poke hb, if_neg (by omega), if_neg (by omega)]
      exact h3 j j1 j2
    · simp only [contents, SBytes.size, mem]
      rw [e15]; exact key raw _ hk (by omega)
  | heap cap size buf =>
    obtain ⟨h1, h2, h3, h4⟩ := hs
    simp only [SBytes.size] at hk
    have hb : k + d.length ≤ buf.length := by omega
    simp only [pokeData, poke_ok hb, Res.bind_ok, Res.pure_eq]
    refine ⟨_, rfl, ⟨h1, h2, by rw [length_poke hb]; exact h3, ?_⟩, rfl, ?_⟩
    · intro h0
      rw [getD_poke hb, if_neg (by omega), if_neg (by omega)]; exact h4 h0
    · simp only [contents, SBytes.size, mem]
      exact key buf _ hk (by omega)

private theorem append_spec (pad : Nat) (hp : pad ≤ 1) (junk : Nat → Nat) (s : SBytes) (hs : s.WF pad) (data : List Nat) :
    ∃ s', s.append pad junk data = .ok s' ∧ s'.WF pad ∧ s'.contents = s.contents ++ data := by
  unfold SBytes.append resizeGrow reserveGrow
  obtain ⟨g1, g2⟩ := grow_heap pad hp s hs (s.size + data.length)
  obtain ⟨r, e, hr, hc, hz, hcap, hcap2, _⟩ := reserve_spec pad hp junk s hs (max (s.size + data.length) (s.capacity pad * 3 / 2))
  obtain ⟨t, e2, ht, hsz, hct, _⟩ := resize_spec pad hp junk r hr (s.size + data.length) (Or.inl (by rw [hcap2 g1]; exact g2))
  obtain ⟨u, e3, hu, hsz2, hcu⟩ := pokeData_spec pad t ht s.size data (by omega)
  simp only [e, Res.bind_ok, e2, e3]
  refine ⟨u, rfl, hu, ?_⟩
  rw [hz] at hct
  have hl := contents_length hp hs
  rw [hcu, hct, hc, List.take_of_length_le (by omega), List.drop_of_length_le (by rw [contents_length hp ht]; omega)]
  simp

private theorem plus_spec (pad : Nat) (hp : pad ≤ 1) (junk : Nat → Nat) (x y : List Nat) :
    ∃ r r2 r3, SBytes.resize pad junk SBytes.empty (x.length + y.length) = .ok r ∧ r.pokeData 0 x = .ok r2 ∧ r2.pokeData x.length y = .ok r3 ∧
      r3.WF pad ∧ r3.contents = x ++ y := by
  have hz : SBytes.empty.size = 0 := by
    have := contents_length hp (empty_spec pad).1
    rw [(empty_spec pad).2] at this; exact this.symm
  obtain ⟨r, e, hr, hs, _, _⟩ := resize_spec pad hp junk SBytes.empty (empty_spec pad).1 (x.length + y.length)
    (Or.inr (Or.inr (by rw [hz, Nat.zero_or])))
  obtain ⟨r2, e2, hr2, hs2, hc2⟩ := pokeData_spec pad r hr 0 x (by omega)
  obtain ⟨r3, e3, hr3, hs3, hc3⟩ := pokeData_spec pad r2 hr2 x.length y (by omega)
  refine ⟨r, r2, r3, e, e2, e3, hr3, ?_⟩
  rw [hc3, List.drop_of_length_le (by rw [contents_length hp hr2]; omega), hc2]
  simp

private theorem setObj_contents (m : Nat → SBytes) (i : Nat) (s : SBytes) :
    (fun k => (setObj m i s k).contents) = setObj (fun k => (m k).contents) i s.contents := by
  funext k; simp only [setObj]; split_ifs <;> rfl

private theorem setObj_wf {pad : Nat} {m : Nat → SBytes} (hm : ∀ i, (m i).WF pad) (i : Nat) {s : SBytes} (hs : s.WF pad) :
    ∀ k, (setObj m i s k).WF pad := by
  intro k; simp only [setObj]; split_ifs
  · exact hs
  · exact hm k

private theorem setObj_self {α : Type} (m : Nat → α) (i : Nat) : setObj m i (m i) = m := by
  funext k; simp only [setObj]; split_ifs with h
  · rw [h]
  · rfl

private theorem step_spec (pad : Nat) (hp : pad ≤ 1) (junk : Nat → Nat) (m : Nat → SBytes) (hm : ∀ i, (m i).WF pad) (o : SOp)
    (ha : o.Allowed pad m) :
    ∃ m', o.run pad junk m = .ok m' ∧ (∀ i, (m' i).WF pad) ∧ o.Spec (fun k => (m k).contents) (fun k => (m' k).contents) := by
  cases o with
  | construct i data =>
    obtain ⟨h1, h2⟩ := ofBytes_spec pad hp data
    exact ⟨_, rfl, setObj_wf hm i h1, by simp only [SOp.Spec]; rw [setObj_contents, h2]⟩
  | assign i data =>
    obtain ⟨s, e, h1, h2⟩ := assign_spec pad hp (m i) (hm i) data
    simp only [SOp.run, e, Res.bind_ok, Res.pure_eq]
    exact ⟨_, rfl, setObj_wf hm i h1, by simp only [SOp.Spec]; rw [setObj_contents, h2]⟩
  | copy i j =>
    obtain ⟨s, e, h1, h2⟩ := assign_spec pad hp (m i) (hm i) (m j).contents
    simp only [SOp.run, e, Res.bind_ok, Res.pure_eq]
    split_ifs with hij
    · subst hij
      exact ⟨_, rfl, hm, by simp only [SOp.Spec]; exact (setObj_self (fun k => (m k).contents) i).symm⟩
    · exact ⟨_, rfl, setObj_wf hm i h1, by simp only [SOp.Spec]; rw [setObj_contents, h2]⟩
  | move i j =>
    refine ⟨_, rfl, setObj_wf (setObj_wf hm i (hm j)) j (empty_spec pad).1, ?_⟩
    simp only [SOp.Spec]; rw [setObj_contents, setObj_contents, (empty_spec pad).2]
  | clear i =>
    refine ⟨_, rfl, setObj_wf hm i (empty_spec pad).1, ?_⟩
    simp only [SOp.Spec]; rw [setObj_contents, (empty_spec pad).2]
  | reserve i n =>
    obtain ⟨s, e, h1, h2, _⟩ := reserve_spec pad hp junk (m i) (hm i) n
    simp only [SOp.run, e, Res.bind_ok, Res.pure_eq]
    refine ⟨_, rfl, setObj_wf hm i h1, ?_⟩
    simp only [SOp.Spec]; rw [setObj_contents, h2]; exact setObj_self (fun k => (m k).contents) i
  | resize i n =>
    obtain ⟨s, e, h1, h2, h3, _⟩ := resize_spec pad hp junk (m i) (hm i) n ha
    simp only [SOp.run, e, Res.bind_ok, Res.pure_eq]
    have hl := contents_length hp h1
    have hl2 := contents_length hp (hm i)
    have hsplit : s.contents = (m i).contents.take n ++ s.contents.drop (m i).size := by
      rw [← h3, List.take_append_drop]
    refine ⟨_, rfl, setObj_wf hm i h1, s.contents.drop (m i).size, ?_, ?_⟩
    · rw [← hsplit, hl, h2]
    · rw [setObj_contents]; rw [← hsplit]
  | append i data =>
    obtain ⟨s, e, h1, h2⟩ := append_spec pad hp junk (m i) (hm i) data
    simp only [SOp.run, e, Res.bind_ok, Res.pure_eq]
    exact ⟨_, rfl, setObj_wf hm i h1, by simp only [SOp.Spec]; rw [setObj_contents, h2]⟩
  | appendFrom i j =>
    obtain ⟨s, e, h1, h2⟩ := append_spec pad hp junk (m i) (hm i) (m j).contents
    simp only [SOp.Allowed] at ha
    simp only [SOp.run, e, Res.bind_ok, Res.pure_eq, if_neg ha]
    exact ⟨_, rfl, setObj_wf hm i h1, by simp only [SOp.Spec]; rw [setObj_contents, h2]⟩
  | plus k i j =>
    have hi := contents_length hp (hm i)
    have hj := contents_length hp (hm j)
    obtain ⟨r, r2, r3, e, e2, e3, h1, h2⟩ := plus_spec pad hp junk (m i).contents (m j).contents
    rw [hi] at e e3
    rw [hj] at e
    simp only [SOp.run, e, e2, e3, Res.bind_ok, Res.pure_eq]
    exact ⟨_, rfl, setObj_wf hm k h1, by simp only [SOp.Spec]; rw [setObj_contents, h2]⟩

private theorem run_spec (pad : Nat) (hp : pad ≤ 1) (junk : Nat → Nat) (ops : List SOp) (m : Nat → SBytes) (hm : ∀ i, (m i).WF pad)
    (ha : AllowedRun pad junk m ops) :
    ∃ m', runOps pad junk m ops = .ok m' ∧ (∀ i, (m' i).WF pad) ∧ SpecRun (fun k => (m k).contents) ops (fun k => (m' k).contents) := by
  induction ops generalizing m with
  | nil => exact ⟨m, rfl, hm, rfl⟩
  | cons o os ih =>
    obtain ⟨m1, e1, hm1, s1⟩ := step_spec pad hp junk m hm o ha.1
    obtain ⟨m2, e2, hm2, s2⟩ := ih m1 hm1 (ha.2 m1 e1)
    refine ⟨m2, by simp only [runOps, e1, Res.bind_ok]; exact e2, hm2, _, s1, s2⟩

/-- C21: starting from default-constructed objects, any history of operations on any number of string objects runs without touching
    memory outside the objects' buffers, and the contents of all objects are those of plain byte lists under the same history; sizes agree
    with the contents, and `nd::string` (`pad = 1`) stays NUL-terminated.  Missing (`AllowedRun`): appending an object to itself, and
    `resize` of an in-object string to a size not containing the bits of the old one, for both of which the claim is false
    (`sso_resize_violated`, `sso_self_append_violated`). -/
theorem sso_history_partial (pad : Nat) (hp : pad ≤ 1) (junk : Nat → Nat) (ops : List SOp)
    (ha : AllowedRun pad junk (fun _ => SBytes.empty) ops) :
    ∃ m', runOps pad junk (fun _ => SBytes.empty) ops = .ok m' ∧
      SpecRun (fun _ => []) ops (fun k => (m' k).contents) ∧
      (∀ i, (m' i).contents.length = (m' i).size) ∧ (pad = 1 → ∀ i, (m' i).mem[(m' i).size]? = some 0) := by
  obtain ⟨m', e, hm, hs⟩ := run_spec pad hp junk ops (fun _ => SBytes.empty) (fun _ => (empty_spec pad).1) ha
  refine ⟨m', e, ?_, fun i => contents_length hp (hm i), ?_⟩
  · have := (empty_spec pad).2
    simp only [this] at hs; exact hs
  · intro h1 i
    have hlt := size_le_mem hp (hm i)
    have h0 : (m' i).mem.getD (m' i).size 0 = 0 := by
      cases hc : m' i with
      | inl raw =>
        have hw := hm i
        rw [hc] at hw
        have := hw.2.1
        simp only [ssoCap] at this
        exact hw.2.2 _ (Nat.le_refl _) (by simp only [SBytes.size]; omega)
      | heap cap size buf =>
        have hw := hm i
        rw [hc] at hw
        exact hw.2.2.2 (by omega)
    rw [List.getElem?_eq_getElem (by omega), ← h0, List.getD_eq_getElem]

/-- C21: `operator==` sees only the contents, not the representation, for all objects reached by any allowed history. -/
theorem sso_eq_exact (pad : Nat) (hp : pad ≤ 1) (junk : Nat → Nat) (ops : List SOp)
    (ha : AllowedRun pad junk (fun _ => SBytes.empty) ops) (m' : Nat → SBytes) (h : runOps pad junk (fun _ => SBytes.empty) ops = .ok m')
    (i j : Nat) : (m' i).eq (m' j) = .ok (decide ((m' i).contents = (m' j).contents)) := by
  obtain ⟨m'', e, hm, _⟩ := run_spec pad hp junk ops (fun _ => SBytes.empty) (fun _ => (empty_spec pad).1) ha
  rw [h] at e
  simp only [Res.ok.injEq] at e; subst e
  have h1 := size_le_mem hp (hm i)
  have h2 := size_le_mem hp (hm j)
  unfold SBytes.eq
  split_ifs with hs
  · simp only [cmpEq, peek]
    rw [if_pos (by omega), if_pos (by omega)]
    simp only [Res.bind_ok, Res.pure_eq, contents, hs]
  · rw [decide_eq_false]
    intro he
    have := contents_length hp (hm i)
    rw [he, contents_length hp (hm j)] at this
    omega

/-- C21 is false for `resize`: for every string held in the object (reachable by construction from its bytes) and every new size that
    also fits in the object, if the old size has a bit the new one lacks, the resulting size is not the requested one. -/
theorem sso_resize_violated (pad : Nat) (junk : Nat → Nat) (data : List Nat) (n : Nat) (hd : data.length ≤ ssoCap pad)
    (hn : n ≤ ssoCap pad) (hor : data.length ||| n ≠ n) :
    ∃ s, (ofBytes pad data).resize pad junk n = .ok s ∧ s.size ≠ n := by
  have hd15 : data.length ≤ 15 := by unfold ssoCap at hd; omega
  have hn15 : n ≤ 15 := by unfold ssoCap at hn; omega
  have e15 : (data ++ List.replicate (15 - data.length) 0 ++ [data.length]).getD 15 0 = data.length := by
    rw [ssoAssign_getD _ hd15]; simp; omega
  have hl : (data ++ List.replicate (15 - data.length) 0 ++ [data.length]).length = 16 := by simp; omega
  have ho : ofBytes pad data = inl (data ++ List.replicate (15 - data.length) 0 ++ [data.length]) := by
    unfold ofBytes; rw [if_pos hd]; rfl
  have hr : ∀ raw, SBytes.reserve pad junk (inl raw) n = .ok (inl raw) := by
    intro raw; unfold SBytes.reserve; rw [if_neg (by simp only [SBytes.capacity]; omega)]
  rw [ho]
  unfold SBytes.resize
  rw [hr]
  simp only [Res.bind_ok, e15]
  generalize (data ++ List.replicate (15 - data.length) 0 ++ [data.length]) = raw at hl e15 ⊢
  have hb : 15 + [data.length ||| n].length ≤ raw.length := by simp; omega
  rw [poke_ok hb]
  simp only [Res.bind_ok]
  have hl1 := length_poke hb
  have hg := getD_poke hb
  generalize (raw.take 15 ++ [data.length ||| n] ++ raw.drop (15 + [data.length ||| n].length)) = raw1 at hl1 hg ⊢
  have hb2 : n + (List.replicate (15 - n) 0).length ≤ raw1.length := by simp; omega
  rw [poke_ok hb2]
  refine ⟨_, rfl, ?_⟩
  simp only [SBytes.size]
  rw [getD_poke hb2, if_neg (by omega), if_neg (by simp; omega), hg]
  simpa using hor

/-- For instance a three-byte string resized to 4 has size 7, and resized to 1 still has size 3. -/
example : ∃ s t, (ofBytes 1 [97, 98, 99]).resize 1 (fun _ => 0) 4 = .ok s ∧ s.size = 7 ∧
    (ofBytes 1 [97, 98, 99]).resize 1 (fun _ => 0) 1 = .ok t ∧ t.size = 3 :=
  ⟨_, _, rfl, rfl, rfl, rfl⟩

/-- Appending an object to itself reads freed or overwritten memory. -/
theorem sso_self_append_violated (pad : Nat) (junk : Nat → Nat) (m : Nat → SBytes) (i : Nat) : (SOp.appendFrom i i).run pad junk m = .ub := by
  simp [SOp.run]

/-- A history crossing from the in-object to the heap representation and back by copy, satisfying the hypotheses. -/
example : AllowedRun 1 (fun k => k) (fun _ => SBytes.empty)
    [.construct 0 [97, 98, 99], .append 0 (List.replicate 20 120), .resize 0 5, .copy 1 0, .move 2 1, .appendFrom 2 0, .plus 3 0 2] := by
  refine ⟨trivial, fun m1 h1 => ⟨trivial, fun m2 h2 => ⟨?_, fun m3 h3 => ⟨trivial, fun m4 h4 => ⟨trivial, fun m5 h5 => ⟨by simp [SOp.Allowed], fun m6 h6 => ⟨trivial, fun m7 h7 => trivial⟩⟩⟩⟩⟩⟩⟩
  simp only [SOp.run, Res.ok.injEq] at h1
  subst h1
  have : m2 0 = .heap 23 23 ([97, 98, 99] ++ List.replicate 20 120 ++ [0]) := by
    have e : (SOp.append 0 (List.replicate 20 120)).run 1 (fun k => k) (setObj (fun _ => SBytes.empty) 0 (ofBytes 1 [97, 98, 99])) = .ok m2 := h2
    simp only [SOp.run, setObj, if_true] at e
    have e2 : (ofBytes 1 [97, 98, 99]).append 1 (fun k => k) (List.replicate 20 120) = .ok (.heap 23 23 ([97, 98, 99] ++ List.replicate 20 120 ++ [0])) := by
      decide
    rw [e2] at e
    simp only [Res.bind_ok, Res.pure_eq, Res.ok.injEq] at e
    rw [← e]; simp [setObj]
  left
  rw [this]; decide

end Dynd
