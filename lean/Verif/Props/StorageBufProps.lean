import Verif.Model.StorageBuf
import Verif.Props.StructProps
import Mathlib.Tactic.Linarith
/-
C53: building kernels and call graphs in a growing buffer.
-/
namespace Dynd

theorem alignedSize_eq {n : Nat} (h : n < 2 ^ 63) : alignedSize n = roundUp n 8 := by
  have := incToAlignment_eq (x := n) (k := 3) (by omega) h
  unfold incToAlignment at this
  unfold alignedSize
  exact this

theorem roundUp8_spec (n : Nat) : n ≤ roundUp n 8 ∧ 8 ∣ roundUp n 8 ∧ roundUp n 8 < n + 8 := by
  unfold roundUp
  omega

theorem poke_spec {l bs : List MByte} {off : Nat} (h : off + bs.length ≤ l.length) :
    ∃ l', poke l off bs = .ok l' ∧ l'.length = l.length ∧
      ∀ k : Nat, l'[k]? = if off ≤ k ∧ k < off + bs.length then bs[k - off]? else l[k]? := by
  refine ⟨_, if_pos h, ?_, ?_⟩
  · simp; omega
  · intro k
    by_cases h1 : k < off
    · rw [if_neg (by omega), List.append_assoc, List.getElem?_append_left (by simp; omega), List.getElem?_take, if_pos h1]
    · by_cases h2 : k < off + bs.length
      · rw [if_pos (by omega), List.getElem?_append_left (by simp; omega), List.getElem?_append_right (by simp; omega)]
        congr 1
        simp; omega
      · rw [if_neg (by omega), List.getElem?_append_right (by simp; omega), List.getElem?_drop]
        congr 1
        simp; omega

/-- The state between operations. -/
structure SBuf.WF (s : SBuf) (l : List MByte) : Prop where
  data : s.data = some l
  len : l.length = s.cap
  al : 8 ∣ s.size
  le : s.size ≤ s.cap
  grow : s.cap = 128 ∨ 2 * s.cap ≤ 3 * s.size
  zero : ∀ k : Nat, s.size ≤ k → k < s.cap → l[k]? = some (some 0)

theorem sbuf_init_wf : SBuf.init.WF (List.replicate 128 (some 0)) :=
  ⟨rfl, by simp [SBuf.init], by simp [SBuf.init], by simp [SBuf.init], Or.inl rfl, fun k _ h => by
    rw [List.getElem?_replicate, if_pos (by simpa [SBuf.init] using h)]⟩

theorem realloc_spec {s : SBuf} {l : List MByte} (h : s.WF l) {new : Nat} (hn : s.cap ≤ new) :
    ∃ l', s.realloc s.cap new = .ok l' ∧ l'.length = new ∧ ∀ k : Nat, k < s.cap → l'[k]? = l[k]? := by
  unfold SBuf.realloc
  rw [h.data]
  simp only
  by_cases hs : s.static = true
  · rw [if_pos hs, if_pos (by rw [h.len])]
    obtain ⟨l', e, hl, hk⟩ := poke_spec (l := List.replicate new (none : MByte)) (bs := l.take s.cap) (off := 0)
      (by simp; rw [h.len]; omega)
    refine ⟨l', e, by simpa using hl, fun k hks => ?_⟩
    rw [hk, if_pos (by simp; rw [h.len]; omega), List.getElem?_take, Nat.sub_zero, if_pos hks]
  · rw [if_neg hs]
    refine ⟨_, rfl, by simp; rw [h.len]; omega, fun k hks => ?_⟩
    rw [List.getElem?_append_left (by simp; rw [h.len]; omega), List.getElem?_take, if_pos (by omega)]

theorem emplace_spec {s : SBuf} {l : List MByte} (h : s.WF l) {total : Nat} (h8 : 8 ∣ total)
    (hb : s.size + total < 2 ^ 60) :
    ∃ s' l', s.emplace true total = (s', .ok s.size) ∧ s'.WF l' ∧ s'.size = s.size + total ∧ s.cap ≤ s'.cap ∧
      (∀ k : Nat, k < s.cap → l'[k]? = l[k]?) ∧ (∀ k : Nat, s.cap ≤ k → k < s'.cap → l'[k]? = some (some 0)) := by
  obtain ⟨hd, hlen, hal, hle, hg, hz⟩ := h
  unfold SBuf.emplace SBuf.reserve
  simp only
  by_cases hc : s.cap < s.size + total
  · rw [if_pos hc, i64_ok (by omega) (by omega)]
    simp only [if_true]
    generalize hreq : (if s.size + total < ((s.cap : Int) * 3).toNat / 2 then ((s.cap : Int) * 3).toNat / 2 else s.size + total) = req
    have h1 : s.size + total ≤ req := by rw [← hreq]; split <;> omega
    have h2 : 2 * req ≤ 3 * (s.size + total) := by rw [← hreq]; split <;> omega
    have e0 : ({ s with size := s.size + total } : SBuf).realloc s.cap req = s.realloc s.cap req := rfl
    obtain ⟨l1, e1, hl1, hk1⟩ := realloc_spec ⟨hd, hlen, hal, hle, hg, hz⟩ (new := req) (by omega)
    obtain ⟨l2, e2, hl2, hk2⟩ := poke_spec (l := l1) (off := s.cap) (bs := List.replicate (req - s.cap) (some 0))
      (by simp; omega)
    rw [e0, e1]
    simp only [e2]
    refine ⟨_, l2, rfl, ⟨rfl, ?_, ?_, ?_, Or.inr ?_, ?_⟩, rfl, ?_, ?_, ?_⟩
    · simp only; omega
    · simp only; omega
    · simp only; omega
    · simp only; omega
    · simp only
      intro k hk1 hk3
      rw [hk2, if_pos (by simp; omega), List.getElem?_replicate, if_pos (by omega)]
    · simp only; omega
    · intro k hk
      rw [hk2, if_neg (by omega), hk1 k hk]
    · intro k hk hk3
      simp only at hk3
      rw [hk2, if_pos (by simp; omega), List.getElem?_replicate, if_pos (by omega)]
  · rw [if_neg hc]
    simp only
    refine ⟨_, l, rfl, ⟨hd, hlen, by simp only; omega, by simp only; omega, ?_, ?_⟩, rfl, le_refl _, fun _ _ => rfl, fun k h1 h2 => by simp only at h2; omega⟩
    · simp only
      rcases hg with hg | hg
      · exact Or.inl hg
      · exact Or.inr (by omega)
    · intro k h1 h2
      exact hz k (by simp only at h1; omega) h2

theorem write_spec {s : SBuf} {l : List MByte} (h : s.WF l) {off : Nat} {bs : List MByte}
    (hb : off + bs.length ≤ s.size) :
    ∃ s' l', s.write off bs = .ok s' ∧ s'.WF l' ∧ s'.size = s.size ∧ s'.cap = s.cap ∧
      ∀ k : Nat, l'[k]? = if off ≤ k ∧ k < off + bs.length then bs[k - off]? else l[k]? := by
  obtain ⟨hd, hlen, hal, hle, hg, hz⟩ := h
  obtain ⟨l', e, hl, hk⟩ := poke_spec (l := l) (off := off) (bs := bs) (by omega)
  unfold SBuf.write
  rw [hd]
  simp only [e, Res.bind_ok, Res.pure_eq]
  refine ⟨_, l', rfl, ⟨rfl, by simp only; omega, hal, hle, hg, ?_⟩, rfl, rfl, hk⟩
  intro k h1 h2
  simp only at h1 h2
  rw [hk, if_neg (by omega)]
  exact hz k h1 h2

/-! ## Specification: a list of independent kernels -/

/-- Overwriting part of a kernel's bytes. -/
def patch (c : List MByte) (pos : Nat) (bs : List MByte) : List MByte := c.take pos ++ bs ++ c.drop (pos + bs.length)

/-- The contents the kernels should have: a new kernel starts with what its constructor stored, the rest zero; a
    write changes the kernel it addresses and no other. -/
def specK : List (List MByte) → List KOp → List (List MByte)
  | cs, [] => cs
  | cs, .push sz bs :: ops => specK (cs ++ [bs ++ List.replicate (sz - bs.length) (some 0)]) ops
  | cs, .write i pos bs :: ops => specK (cs.modify i fun c => patch c pos bs) ops

/-- Constructors and clients stay inside the kernel they own; `sizes` are the sizes of the kernels so far. -/
def ValidK : List Nat → List KOp → Prop
  | _, [] => True
  | sizes, .push sz bs :: ops => bs.length ≤ sz ∧ ValidK (sizes ++ [sz]) ops
  | sizes, .write i pos bs :: ops => (∃ sz, sizes[i]? = some sz ∧ pos + bs.length ≤ sz) ∧ ValidK sizes ops

/-- Total number of bytes asked for (each size rounded up to 8). -/
def bytesK : List KOp → Nat
  | [] => 0
  | .push sz _ :: ops => (sz + 7) / 8 * 8 + bytesK ops
  | .write _ _ _ :: ops => bytesK ops

/-- What the client can rely on: kernel `i` sits at `offs[i]`, aligned to 8, inside the used part of the buffer,
    disjoint from the other kernels, and contains `cs[i]`. -/
def KernelsAt (s : SBuf) (offs : List Nat) (cs : List (List MByte)) : Prop :=
  offs.length = cs.length ∧ s.size ≤ s.cap ∧
  (∀ (i : Nat) (off : Nat) (c : List MByte), offs[i]? = some off → cs[i]? = some c →
    8 ∣ off ∧ off + c.length ≤ s.size ∧
    ∃ l, s.data = some l ∧ l.length = s.cap ∧ (l.drop off).take c.length = c) ∧
  (∀ (i j : Nat) (oi oj : Nat) (c : List MByte), i < j → offs[i]? = some oi → offs[j]? = some oj →
    cs[i]? = some c → oi + c.length ≤ oj)

theorem slice_eq {l c : List MByte} {off : Nat} (h : ∀ k : Nat, k < c.length → l[off + k]? = c[k]?) :
    (l.drop off).take c.length = c := by
  apply List.ext_getElem?
  intro k
  rw [List.getElem?_take, List.getElem?_drop]
  by_cases hk : k < c.length
  · rw [if_pos hk, h k hk]
  · rw [if_neg hk, List.getElem?_eq_none (by omega)]

theorem slice_get {l c : List MByte} {off : Nat} (h : (l.drop off).take c.length = c) (k : Nat) (hk : k < c.length) :
    l[off + k]? = c[k]? := by
  have : ((l.drop off).take c.length)[k]? = c[k]? := by rw [h]
  rw [List.getElem?_take, List.getElem?_drop, if_pos hk] at this
  exact this

theorem patch_length {c bs : List MByte} {pos : Nat} (h : pos + bs.length ≤ c.length) : (patch c pos bs).length = c.length := by
  unfold patch
  simp; omega

theorem patch_get {c bs : List MByte} {pos : Nat} (h : pos + bs.length ≤ c.length) (k : Nat) :
    (patch c pos bs)[k]? = if pos ≤ k ∧ k < pos + bs.length then bs[k - pos]? else c[k]? := by
  obtain ⟨l', e, -, hk⟩ := poke_spec h
  rw [poke, if_pos h] at e
  injection e with e
  rw [patch, e, hk]

theorem runK_spec : ∀ (ops : List KOp) (s : SBuf) (l : List MByte) (offs : List Nat) (cs : List (List MByte)),
    s.WF l → KernelsAt s offs cs → ValidK (cs.map List.length) ops → s.size + bytesK ops < 2 ^ 60 →
    ∃ s' l' offs', runK s offs ops = .ok (s', offs ++ offs') ∧ s'.WF l' ∧ KernelsAt s' (offs ++ offs') (specK cs ops) := by
  intro ops
  induction ops with
  | nil =>
    intro s l offs cs hw hK _ _
    exact ⟨s, l, [], by simp [runK], hw, by simpa [specK] using hK⟩
  | cons op ops ih =>
    intro s l offs cs hw hK hv hb
    cases op with
    | push sz bs =>
      obtain ⟨hbs, hv⟩ := hv
      simp only [bytesK] at hb
      have e8 : alignedSize sz = roundUp sz 8 := alignedSize_eq (by omega)
      have r8 : roundUp sz 8 = (sz + 7) / 8 * 8 := rfl
      obtain ⟨r1, r2, r3⟩ := roundUp8_spec sz
      obtain ⟨s1, l1, e1, hw1, hs1, hc1, hk1, hz1⟩ := emplace_spec hw (total := alignedSize sz) (by rw [e8]; exact r2) (by omega)
      obtain ⟨s2, l2, e2, hw2, hs2, hc2, hk2⟩ := write_spec hw1 (off := s.size) (bs := bs) (by omega)
      have hpush : s.push true sz bs = (s2, .ok s.size) := by
        unfold SBuf.push
        rw [e1]
        simp only [e2]
      have hle := hw.le
      have hle2 := hw2.le
      have hnew : KernelsAt s2 (offs ++ [s.size]) (cs ++ [bs ++ List.replicate (sz - bs.length) (some 0)]) := by
        obtain ⟨k1, k2, k3, k4⟩ := hK
        refine ⟨by simp [k1], hw2.le, ?_, ?_⟩
        · intro i off c ho hc
          by_cases hi : i < offs.length
          · rw [List.getElem?_append_left hi] at ho
            rw [List.getElem?_append_left (by omega)] at hc
            obtain ⟨q1, q2, l0, q3, q4, q5⟩ := k3 i off c ho hc
            rw [hw.data] at q3
            injection q3 with q3
            subst q3
            refine ⟨q1, by omega, l2, hw2.data, hw2.len, slice_eq fun k hk => ?_⟩
            rw [hk2, if_neg (by omega), hk1 _ (by omega)]
            exact slice_get q5 k hk
          · have hi2 := (List.getElem?_eq_some_iff.1 ho).1
            simp at hi2
            have : i = offs.length := by omega
            subst this
            rw [List.getElem?_append_right (le_refl _)] at ho
            rw [List.getElem?_append_right (by omega), ← k1] at hc
            simp at ho hc
            subst ho hc
            have hlen : (bs ++ List.replicate (sz - bs.length) (some (0 : UInt8))).length = sz := by simp; omega
            refine ⟨hw.al, by rw [hlen]; omega, l2, hw2.data, hw2.len, slice_eq fun k hk => ?_⟩
            rw [hlen] at hk
            rw [hk2]
            by_cases hkb : k < bs.length
            · rw [if_pos (by omega), List.getElem?_append_left hkb]
              congr 1; omega
            · rw [if_neg (by omega), List.getElem?_append_right (by omega), List.getElem?_replicate, if_pos (by omega)]
              by_cases hck : s.size + k < s.cap
              · rw [hk1 _ hck]
                exact hw.zero _ (by omega) hck
              · exact hz1 _ (by omega) (by omega)
        · intro i j oi oj c hij hoi hoj hc
          by_cases hj : j < offs.length
          · rw [List.getElem?_append_left hj] at hoj
            rw [List.getElem?_append_left (by omega)] at hoi
            rw [List.getElem?_append_left (by omega)] at hc
            exact k4 i j oi oj c hij hoi hoj hc
          · have hj2 := (List.getElem?_eq_some_iff.1 hoj).1
            simp at hj2
            have : j = offs.length := by omega
            subst this
            rw [List.getElem?_append_right (le_refl _)] at hoj
            simp at hoj
            subst hoj
            rw [List.getElem?_append_left (by omega)] at hoi
            rw [List.getElem?_append_left (by omega)] at hc
            exact (k3 i oi c hoi hc).2.1
      obtain ⟨s3, l3, offs', e3, hw3, hK3⟩ := ih s2 l2 _ _ hw2 hnew
        (by simpa [List.length_append, Nat.add_sub_cancel' hbs] using hv) (by omega)
      refine ⟨s3, l3, s.size :: offs', ?_, hw3, ?_⟩
      · simp only [runK, hpush, e3]
        simp
      · simpa [specK] using hK3
    | write i pos bs =>
      obtain ⟨⟨sz, hsz, hpos⟩, hv⟩ := hv
      rw [List.getElem?_map] at hsz
      obtain ⟨c, hc, rfl⟩ : ∃ c, cs[i]? = some c ∧ c.length = sz := by
        cases hc : cs[i]? with
        | none => rw [hc] at hsz; simp at hsz
        | some c => rw [hc] at hsz; exact ⟨c, rfl, by simpa using hsz⟩
      obtain ⟨k1, k2, k3, k4⟩ := hK
      have hi : i < offs.length := by rw [k1]; exact (List.getElem?_eq_some_iff.1 hc).1
      obtain ⟨off, ho⟩ : ∃ off, offs[i]? = some off := ⟨offs[i], List.getElem?_eq_getElem hi⟩
      obtain ⟨q1, q2, -⟩ := k3 i off c ho hc
      obtain ⟨s2, l2, e2, hw2, hs2, hc2, hk2⟩ := write_spec hw (off := off + pos) (bs := bs) (by omega)
      have hnew : KernelsAt s2 offs (cs.modify i fun c => patch c pos bs) := by
        refine ⟨by simp [k1], hw2.le, ?_, ?_⟩
        · intro j oj cj hoj hcj
          rw [List.getElem?_modify] at hcj
          by_cases hij : i = j
          · subst hij
            rw [hc] at hcj
            rw [ho] at hoj
            simp at hoj hcj
            subst hoj hcj
            obtain ⟨q1, q2, l0, q3, q4, q5⟩ := k3 i off c ho hc
            rw [hw.data] at q3
            injection q3 with q3
            subst q3
            rw [patch_length hpos]
            refine ⟨q1, by omega, l2, hw2.data, hw2.len, ?_⟩
            have := slice_eq (l := l2) (c := patch c pos bs) (off := off) (fun k hk => by
              rw [patch_length hpos] at hk
              rw [hk2, patch_get hpos, slice_get q5 k hk]
              by_cases hin : pos ≤ k ∧ k < pos + bs.length
              · rw [if_pos (by omega), if_pos hin]
                congr 1; omega
              · rw [if_neg (by omega), if_neg hin])
            rwa [patch_length hpos] at this
          · simp [hij] at hcj
            obtain ⟨q1', q2', l0, q3, q4, q5⟩ := k3 j oj cj hoj hcj
            rw [hw.data] at q3
            injection q3 with q3
            subst q3
            refine ⟨q1', by omega, l2, hw2.data, hw2.len, slice_eq fun k hk => ?_⟩
            rw [hk2, if_neg ?_]
            · exact slice_get q5 k hk
            · rcases Nat.lt_or_gt_of_ne hij with h | h
              · have := k4 i j off oj c h ho hoj hc
                omega
              · have := k4 j i oj off cj h hoj ho hcj
                omega
        · intro a b oa ob ca hab hoa hob hca
          rw [List.getElem?_modify] at hca
          by_cases hia : i = a
          · subst hia
            rw [hc] at hca
            simp at hca
            subst hca
            rw [patch_length hpos]
            exact k4 i b oa ob c hab hoa hob hc
          · simp [hia] at hca
            exact k4 a b oa ob ca hab hoa hob hca
      obtain ⟨s3, l3, offs', e3, hw3, hK3⟩ := ih s2 l2 _ _ hw2 hnew
        (by
          have : (cs.modify i fun c => patch c pos bs).map List.length = cs.map List.length := by
            apply List.ext_getElem?
            intro k
            rw [List.getElem?_map, List.getElem?_modify, List.getElem?_map]
            by_cases hik : i = k
            · subst hik
              rw [hc]
              simp [patch_length hpos]
            · simp [hik]
          rw [this]; exact hv)
        (by simp only [bytesK] at hb; omega)
      refine ⟨s3, l3, offs', ?_, hw3, ?_⟩
      · simp only [runK, ho, e2, Res.bind_ok, e3]
      · simpa [specK] using hK3

/-- C53: kernels built one after the other keep their contents, whatever the sizes and however often the buffer is
    reallocated; each kernel has an aligned slot of its own inside the buffer; writes through one kernel do not
    affect the others; the construction itself never leaves the buffer. -/
theorem kernels_preserved (ops : List KOp) (hv : ValidK [] ops) (hb : bytesK ops < 2 ^ 60) :
    ∃ s offs, runK SBuf.init [] ops = .ok (s, offs) ∧ KernelsAt s offs (specK [] ops) := by
  obtain ⟨s, l, offs, e, -, hK⟩ := runK_spec ops SBuf.init _ [] [] sbuf_init_wf
    ⟨rfl, by simp [SBuf.init], fun i off c h => by simp at h, fun i j oi oj c _ h => by simp at h⟩ (by simpa using hv)
    (by simpa [SBuf.init] using hb)
  exact ⟨s, offs, by simpa using e, by simpa using hK⟩

/-- Three kernels of 100, 60 and 3 bytes; the second forces a reallocation, and the first is written to afterwards. -/
def exampleK : List KOp :=
  [.push 100 [some 1, some 2], .push 60 [some 3], .write 0 1 [some 9], .push 3 []]

example : ValidK [] exampleK ∧ bytesK exampleK < 2 ^ 60 ∧
    (specK [] exampleK).map (fun c => c.take 3) = [[some 1, some 9, some 0], [some 3, some 0, some 0], [some 0, some 0, some 0]] := by
  refine ⟨?_, by decide, by decide⟩
  simp [exampleK, ValidK]

example : (match runK SBuf.init [] exampleK with | .ok (s, offs) => (s.cap, s.size, offs) | _ => (0, 0, [])) =
    (192, 176, [0, 104, 168]) := by decide +kernel

/-! ## Call graphs -/

/-- A closure to append: two 8-byte function pointers, and content not longer than the closure. -/
def CNode.Ok (n : CNode) : Prop := n.fns.length = 16 ∧ n.bytes.length ≤ n.size

/-- Bytes of one node: 24 for the header, and the closure rounded up to 8. -/
def CNode.span (n : CNode) : Nat := 24 + (n.size + 7) / 8 * 8

/-- Offsets at which the nodes should be found: each right behind its predecessor. -/
def nodeOffsets : Nat → List CNode → List Nat
  | _, [] => []
  | o, n :: ns => o :: nodeOffsets (o + n.span) ns

def graphBytes (ns : List CNode) : Nat := (ns.map CNode.span).sum

theorem sizeBytesLE_length (n v : Nat) : (sizeBytesLE n v).length = n := by
  induction n generalizing v with
  | zero => rfl
  | succ n ih => simp [sizeBytesLE, ih]

theorem readLE_sizeBytesLE : ∀ (n v : Nat), v < 256 ^ n → readLE (sizeBytesLE n v) = .ok v
  | 0, v, h => by
    have : v = 0 := by simpa using h
    subst this; rfl
  | n + 1, v, h => by
    have h2 : v / 256 < 256 ^ n := by
      rw [Nat.div_lt_iff_lt_mul (by norm_num)]
      rwa [pow_succ] at h
    simp only [sizeBytesLE, readLE, readLE_sizeBytesLE n _ h2, Res.bind_ok, Res.pure_eq, Res.ok.injEq]
    rw [UInt8.toNat_ofNat']
    omega

/-- The nodes are laid out from `o` on, ending at `e`. -/
def NodesAt (s : SBuf) (l : List MByte) : Nat → List CNode → Prop
  | o, [] => o = s.size
  | o, n :: ns => o + n.span ≤ s.size ∧
      (l.drop o).take (24 + n.bytes.length) = nodeBytes n.fns n.size n.bytes ∧ NodesAt s l (o + n.span) ns

theorem span_eq {n : CNode} (h : n.size < 2 ^ 60) : alignedSize 24 + alignedSize n.size = n.span := by
  rw [alignedSize_eq (by norm_num), alignedSize_eq (by omega)]
  unfold CNode.span roundUp
  omega

theorem nodeBytes_length {n : CNode} (h : n.Ok) : (nodeBytes n.fns n.size n.bytes).length = 24 + n.bytes.length := by
  unfold nodeBytes
  simp [sizeBytesLE_length, h.1]
  omega

theorem dataSizeAt_spec {s : SBuf} {l : List MByte} (hw : s.WF l) {o : Nat} {n : CNode} (hn : n.Ok)
    (hs : n.span < 2 ^ 60) (hb : o + n.span ≤ s.size)
    (h : (l.drop o).take (24 + n.bytes.length) = nodeBytes n.fns n.size n.bytes) : s.dataSizeAt o = .ok n.span := by
  have hle := hw.le
  have hsz : n.size < 2 ^ 60 := by unfold CNode.span at hs; omega
  have h24 : 24 ≤ n.span := by unfold CNode.span; omega
  unfold SBuf.dataSizeAt
  rw [hw.data]
  simp only
  rw [if_pos (by rw [hw.len]; omega)]
  have e : (l.drop (o + 16)).take 8 = sizeBytesLE 8 n.span := by
    have h1 : ((l.drop o).take (24 + n.bytes.length)).drop 16 = sizeBytesLE 8 n.span ++ n.bytes := by
      rw [h, nodeBytes, span_eq hsz, List.append_assoc, List.drop_append]
      simp [hn.1]
    rw [List.drop_take, List.drop_drop] at h1
    have h2 := congrArg (List.take 8) h1
    rw [List.take_take, List.take_append, sizeBytesLE_length] at h2
    rw [show min 8 (24 + n.bytes.length - 16) = 8 by omega] at h2
    rw [h2, List.take_of_length_le (by rw [sizeBytesLE_length])]
    simp
  rw [e, readLE_sizeBytesLE 8 _ (by omega)]

theorem NodesAt.mono {s s' : SBuf} {l l' : List MByte} :
    ∀ {ns : List CNode} {o : Nat}, (∀ n ∈ ns, n.Ok) → NodesAt s l o ns →
      s.size ≤ l.length →
      (∀ k : Nat, k < s.size → l'[k]? = l[k]?) →
      ∀ (m : CNode), s'.size = s.size + m.span →
        (l'.drop s.size).take (24 + m.bytes.length) = nodeBytes m.fns m.size m.bytes → NodesAt s' l' o (ns ++ [m])
  | [], o, _, h, _, hk, m, hs, hm => by
    simp only [NodesAt] at h
    subst h
    simp only [List.nil_append, NodesAt]
    exact ⟨by omega, hm, by omega⟩
  | n :: ns, o, hok, h, hl, hk, m, hs, hm => by
    obtain ⟨h1, h2, h3⟩ := h
    have hn := hok n (by simp)
    have hsp : 24 + n.bytes.length ≤ n.span := by
      have := hn.2
      unfold CNode.span; omega
    refine ⟨by omega, ?_, NodesAt.mono (fun x hx => hok x (by simp [hx])) h3 hl hk m hs hm⟩
    rw [← h2]
    apply List.ext_getElem?
    intro k
    rw [List.getElem?_take, List.getElem?_take, List.getElem?_drop, List.getElem?_drop]
    by_cases hk2 : k < 24 + n.bytes.length
    · rw [if_pos hk2, if_pos hk2, hk _ (by omega)]
    · rw [if_neg hk2, if_neg hk2]

theorem pushNode_spec {s : SBuf} {l : List MByte} (hw : s.WF l) {n : CNode} (hn : n.Ok)
    (hb : s.size + n.span < 2 ^ 60) :
    ∃ s' l', s.pushNode true n.fns n.size n.bytes = (s', .ok s.size) ∧ s'.WF l' ∧ s'.size = s.size + n.span ∧
      (∀ k : Nat, k < s.size → l'[k]? = l[k]?) ∧
      (l'.drop s.size).take (24 + n.bytes.length) = nodeBytes n.fns n.size n.bytes := by
  have hsz : n.size < 2 ^ 60 := by unfold CNode.span at hb; omega
  have hbl := nodeBytes_length hn
  have hsp : 24 + n.bytes.length ≤ n.span := by
    have := hn.2
    unfold CNode.span; omega
  have hle := hw.le
  obtain ⟨s1, l1, e1, hw1, hs1, hc1, hk1, hz1⟩ := emplace_spec hw (total := n.span) (by unfold CNode.span; omega) hb
  obtain ⟨s2, l2, e2, hw2, hs2, hc2, hk2⟩ := write_spec hw1 (off := s.size) (bs := nodeBytes n.fns n.size n.bytes)
    (by omega)
  refine ⟨s2, l2, ?_, hw2, by omega, ?_, ?_⟩
  · unfold SBuf.pushNode
    rw [span_eq hsz, e1]
    simp only [e2]
  · intro k hk
    rw [hk2, if_neg (by omega), hk1 k (by omega)]
  · rw [← hbl]
    apply slice_eq
    intro k hk
    rw [hk2, if_pos (by omega)]
    congr 1; omega

theorem buildGraph_spec : ∀ (ns : List CNode) (s : SBuf) (l : List MByte) (done : List CNode),
    s.WF l → (∀ n ∈ done, n.Ok) → (∀ n ∈ ns, n.Ok) → NodesAt s l 0 done → s.size + graphBytes ns < 2 ^ 60 →
    ∃ s' l', buildGraph s ns = .ok (s', nodeOffsets s.size ns) ∧ s'.WF l' ∧ NodesAt s' l' 0 (done ++ ns) ∧
      s'.size = s.size + graphBytes ns := by
  intro ns
  induction ns with
  | nil => intro s l done hw _ _ hN _; exact ⟨s, l, rfl, hw, by simpa using hN, by simp [graphBytes]⟩
  | cons n ns ih =>
    intro s l done hw hd hok hN hb
    have hgb : graphBytes (n :: ns) = n.span + graphBytes ns := by simp [graphBytes]
    obtain ⟨s1, l1, e1, hw1, hs1, hk1, hc1⟩ := pushNode_spec hw (hok n (by simp)) (by omega)
    obtain ⟨s2, l2, e2, hw2, hN2, hs2⟩ := ih s1 l1 (done ++ [n]) hw1
      (fun x hx => by
        rcases List.mem_append.1 hx with h | h
        · exact hd x h
        · rw [List.mem_singleton] at h; subst h; exact hok x (by simp))
      (fun x hx => hok x (by simp [hx]))
      (NodesAt.mono hd hN (by rw [hw.len]; exact hw.le) hk1 n hs1 hc1) (by omega)
    refine ⟨s2, l2, ?_, hw2, by simpa using hN2, by omega⟩
    simp only [buildGraph, e1, e2, Res.bind_ok, nodeOffsets, hs1]
    rfl

theorem walk_spec {s : SBuf} {l : List MByte} (hw : s.WF l) (hsz : s.size < 2 ^ 60) :
    ∀ (ns : List CNode) (o : Nat), (∀ n ∈ ns, n.Ok) → NodesAt s l o ns →
      (∀ fuel, ns.length < fuel → s.walk fuel o = .ok (nodeOffsets o ns)) ∧
      (∀ (k : Nat) (p : Nat), (nodeOffsets o ns ++ [s.size])[k]? = some p → s.advance k o = .ok p)
  | [], o, _, h => by
    simp only [NodesAt] at h
    refine ⟨fun fuel hf => ?_, fun k p hk => ?_⟩
    · obtain ⟨f, rfl⟩ : ∃ f, fuel = f + 1 := ⟨fuel - 1, by simp at hf; omega⟩
      rw [SBuf.walk, if_neg (by simp [h])]
      rfl
    · cases k with
      | zero => simp [nodeOffsets] at hk; rw [SBuf.advance, h, hk]
      | succ k => simp [nodeOffsets] at hk
  | n :: ns, o, hok, h => by
    obtain ⟨h1, h2, h3⟩ := h
    have hn := hok n (by simp)
    have h24 : 24 ≤ n.span := by unfold CNode.span; omega
    have hd := dataSizeAt_spec hw hn (by omega) h1 h2
    obtain ⟨ih1, ih2⟩ := walk_spec hw hsz ns (o + n.span) (fun x hx => hok x (by simp [hx])) h3
    refine ⟨fun fuel hf => ?_, fun k p hk => ?_⟩
    · obtain ⟨f, rfl⟩ : ∃ f, fuel = f + 1 := ⟨fuel - 1, by simp at hf; omega⟩
      rw [SBuf.walk, if_pos (by omega), hd, Res.bind_ok, ih1 f (by simp at hf; omega), Res.bind_ok]
      rfl
    · cases k with
      | zero => simp [nodeOffsets] at hk; rw [SBuf.advance, hk]
      | succ k =>
        rw [SBuf.advance, hd, Res.bind_ok]
        apply ih2
        simpa [nodeOffsets] using hk

/-- C53: the nodes of a call graph lie one behind the other; destroying the graph visits exactly the nodes appended,
    in order, and stops; a kernel builder stepping through the graph reaches the nodes in the order they were appended
    (and the end after the last). -/
theorem call_graph_walk (ns : List CNode) (hok : ∀ n ∈ ns, n.Ok) (hb : graphBytes ns < 2 ^ 60) :
    ∃ s, buildGraph SBuf.init ns = .ok (s, nodeOffsets 0 ns) ∧
      (∀ fuel, ns.length < fuel → s.walk fuel 0 = .ok (nodeOffsets 0 ns)) ∧
      (∀ (k : Nat) (p : Nat), (nodeOffsets 0 ns)[k]? = some p → s.advance k 0 = .ok p) ∧
      s.advance ns.length 0 = .ok s.size := by
  have h0 : SBuf.init.size = 0 := rfl
  obtain ⟨s, l, e, hw, hN, hs⟩ := buildGraph_spec ns SBuf.init _ [] sbuf_init_wf (by simp) hok
    (by simp [NodesAt, SBuf.init]) (by omega)
  obtain ⟨w1, w2⟩ := walk_spec hw (by omega) ns 0 hok (by simpa using hN)
  refine ⟨s, e, w1, fun k p hk => w2 k p ?_, w2 _ _ ?_⟩
  · rw [List.getElem?_append_left (List.getElem?_eq_some_iff.1 hk).1]; exact hk
  · have hl : ∀ (ns : List CNode) (o : Nat), (nodeOffsets o ns).length = ns.length := by
      intro ns
      induction ns with
      | nil => intro o; rfl
      | cons n ns ih => intro o; simp [nodeOffsets, ih]
    rw [List.getElem?_append_right (by rw [hl]), hl]
    simp

/-- Two closures of 5 and 200 bytes. -/
def exampleG : List CNode := [⟨List.replicate 16 (some 7), 5, [some 1]⟩, ⟨List.replicate 16 (some 8), 200, []⟩]

example : (∀ n ∈ exampleG, n.Ok) ∧ graphBytes exampleG < 2 ^ 60 ∧ nodeOffsets 0 exampleG = [0, 32] := by
  refine ⟨?_, by decide, by decide⟩
  simp [exampleG, CNode.Ok]

/-- C53: when memory runs out while a node is appended the exception leaves the graph in a state whose destructor
    dereferences a NULL buffer: the size has been advanced, the data pointer is NULL. -/
theorem call_graph_failure_violated (fns closure : List MByte) (fuel : Nat) :
    (SBuf.init.pushNode false fns 200 closure).2 = .throw .badAlloc ∧
    (SBuf.init.pushNode false fns 200 closure).1.walk fuel 0 = .ub := by
  have e : SBuf.init.pushNode false fns 200 closure =
      ({ data := none, cap := 128, size := 224, static := false }, .throw .badAlloc) := by
    rfl
  rw [e]
  refine ⟨rfl, ?_⟩
  cases fuel with
  | zero => rfl
  | succ f => rfl

end Dynd
