/-
C123: the bytes of a reduction's result.
-/
import Verif.Model.ReduceRun
import Verif.Props.ReductionProps

namespace Dynd

theorem leBytes_length : ∀ (w n : Nat), (leBytes w n).length = w
  | 0, _ => rfl
  | w + 1, n => by simp [leBytes, leBytes_length w]

theorem wrBytes_out (x : Int) : ∀ (bs : List Nat) (mem : Int → Nat) (a : Int), x < a ∨ a + bs.length ≤ x →
    wrBytes mem a bs x = mem x
  | [], _, _, _ => rfl
  | b :: bs, mem, a, h => by
    simp only [List.length_cons] at h
    rw [wrBytes, wrBytes_out x bs _ (a + 1) (by push_cast at h; omega)]
    rw [if_neg (by push_cast at h; omega)]

theorem rdBytes_congr {m m' : Int → Nat} : ∀ (w : Nat) (a : Int), (∀ x, a ≤ x → x < a + w → m x = m' x) →
    rdBytes m a w = rdBytes m' a w
  | 0, _, _ => rfl
  | w + 1, a, h => by
    rw [rdBytes, rdBytes, h a (by omega) (by push_cast; omega),
      rdBytes_congr w (a + 1) (fun x h1 h2 => h x (by omega) (by push_cast at h2 ⊢; omega))]

theorem rd_wr : ∀ (w n : Nat) (mem : Int → Nat) (a : Int), n < 256 ^ w →
    rdBytes (wrBytes mem a (leBytes w n)) a w = n
  | 0, n, _, _, h => by simp at h; simp [rdBytes, h]
  | w + 1, n, mem, a, h => by
    rw [leBytes, wrBytes, rdBytes, wrBytes_out a _ _ (a + 1) (by omega), rd_wr w (n / 256)]
    · simp only [if_true]; omega
    · have : 256 ^ (w + 1) = 256 ^ w * 256 := by rw [Nat.pow_succ]
      rw [this] at h
      exact Nat.div_lt_of_lt_mul (by rw [Nat.mul_comm]; exact h)

/-- a number read in two parts -/
theorem rd_split (mem : Int → Nat) : ∀ (u v : Nat) (a : Int),
    rdBytes mem a (u + v) = rdBytes mem a u + 256 ^ u * rdBytes mem (a + u) v
  | 0, v, a => by simp [rdBytes]
  | u + 1, v, a => by
    rw [show u + 1 + v = (u + v) + 1 by omega, rdBytes, rdBytes, rd_split mem u v (a + 1)]
    rw [show a + 1 + (u : Int) = a + ((u + 1 : Nat) : Int) by push_cast; omega, Nat.pow_succ, Nat.mul_add]
    rw [← Nat.mul_assoc, Nat.mul_comm 256 (256 ^ u)]
    omega

/-- addresses of elements of `w` bytes that do not overlap -/
def ElemsApart (w : Nat) (A : List Int) : Prop := ∀ a ∈ A, ∀ b ∈ A, a = b ∨ a + w ≤ b ∨ b + w ≤ a

/-- the address an event is at -/
def REv.at : REv → Int
  | .init d => d
  | .acc d _ => d

/-- what is written at one element is not seen at another -/
theorem rd_other {w : Nat} {A : List Int} (hA : ElemsApart w A) {a b : Int} (ha : a ∈ A) (hb : b ∈ A) (hne : a ≠ b)
    (mem : Int → Nat) {bs : List Nat} (hl : bs.length = w) : rdBytes (wrBytes mem b bs) a w = rdBytes mem a w := by
  apply rdBytes_congr
  intro x h1 h2
  apply wrBytes_out
  rcases hA a ha b hb with h | h | h
  · exact absurd h hne
  · omega
  · rw [hl]; omega

/-- The run on bytes computes what the run on elements does when the start writes a whole element, and changes no byte
    outside the elements. -/
theorem runBytes_elems {α β : Type} {w : Nat} {enc : α → Nat} {dec : Nat → α} (hdec : ∀ x, dec (enc x) = x)
    (henc : ∀ x, enc x < 256 ^ w) (e : α) (op : α → β → α) (src : Int → β) {A : List Int} (hA : ElemsApart w A) :
    ∀ (evs : List REv) (mem : Int → Nat) (f : Int → α), (∀ v ∈ evs, v.at ∈ A) →
      (∀ a ∈ A, dec (rdBytes mem a w) = f a) →
      (∀ a ∈ A, dec (rdBytes (runBytes w enc dec (leBytes w (enc e)) op src evs mem) a w) = runEv op e src evs f a) ∧
      ∀ x, (∀ a ∈ A, x < a ∨ a + w ≤ x) → runBytes w enc dec (leBytes w (enc e)) op src evs mem x = mem x
  | [], mem, f, _, hf => ⟨hf, fun _ _ => rfl⟩
  | .init d :: l, mem, f, hv, hf => by
    have hd : d ∈ A := hv (.init d) (by simp)
    obtain ⟨h1, h2⟩ := runBytes_elems hdec henc e op src hA l (wrBytes mem d (leBytes w (enc e)))
      (fun a => if a = d then e else f a) (fun v hv' => hv v (by simp [hv'])) (by
        intro a ha
        by_cases had : a = d
        · subst had
          rw [if_pos rfl, rd_wr _ _ _ _ (henc e), hdec]
        · rw [if_neg had, rd_other hA ha hd had mem (leBytes_length _ _), hf a ha])
    refine ⟨h1, fun x hx => ?_⟩
    rw [runBytes, h2 x hx, wrBytes_out]
    rw [leBytes_length]; exact hx d hd
  | .acc d s :: l, mem, f, hv, hf => by
    have hd : d ∈ A := hv (.acc d s) (by simp)
    obtain ⟨h1, h2⟩ := runBytes_elems hdec henc e op src hA l
      (wrBytes mem d (leBytes w (enc (op (dec (rdBytes mem d w)) (src s)))))
      (fun a => if a = d then op (f d) (src s) else f a) (fun v hv' => hv v (by simp [hv'])) (by
        intro a ha
        by_cases had : a = d
        · subst had
          simp only [if_true]
          rw [rd_wr _ _ _ _ (henc _), hdec, hf _ ha]
        · rw [if_neg had, rd_other hA ha hd had mem (leBytes_length _ _), hf a ha])
    refine ⟨h1, fun x hx => ?_⟩
    rw [runBytes, h2 x hx, wrBytes_out]
    rw [leBytes_length]; exact hx d hd

/-- An address something happens at is not left alone by every reduction. -/
theorem runEv_marks (a : Int) : ∀ (evs : List REv) (f : Int → Bool), (f a = true ∨ ∃ v ∈ evs, v.at = a) →
    runEv (fun _ _ => true) true (fun _ => ()) evs f a = true
  | [], f, h => by
    rcases h with h | ⟨v, hv, _⟩
    · exact h
    · simp at hv
  | v :: l, f, h => by
    cases v with
    | init d =>
      rw [runEv]
      apply runEv_marks a l
      by_cases had : a = d
      · left; simp [had]
      · rcases h with h | ⟨v, hv, hva⟩
        · left; simp [had, h]
        · rcases List.mem_cons.1 hv with rfl | hv
          · exact absurd hva.symm had
          · exact .inr ⟨v, hv, hva⟩
    | acc d s =>
      rw [runEv]
      apply runEv_marks a l
      by_cases had : a = d
      · left; simp [had]
      · rcases h with h | ⟨v, hv, hva⟩
        · left; simp [had, h]
        · rcases List.mem_cons.1 hv with rfl | hv
          · exact absurd hva.symm had
          · exact .inr ⟨v, hv, hva⟩

/-- where events are, when nothing else is ever changed -/
theorem events_in {evs : List REv} {A : List Int}
    (h : ∀ a, a ∉ A → runEv (fun (_ : Bool) (_ : Unit) => true) true (fun _ => ()) evs (fun _ => false) a = false) :
    ∀ v ∈ evs, v.at ∈ A := by
  intro v hv
  apply Classical.byContradiction
  intro hn
  have := h _ hn
  rw [runEv_marks v.at evs (fun _ => false) (.inr ⟨v, hv, rfl⟩)] at this
  exact absurd this (by simp)

theorem rowMajor_dvd (es : Nat) : ∀ (sh : List Nat) (o : List Nat), (es : Int) ∣ dstOff (rowMajor es sh) o
  | [], o => by cases o <;> simp [rowMajor, dstOff]
  | _ :: _, [] => by rw [dstOff_nil]; exact Int.dvd_zero _
  | n :: sh, j :: o => by
    rw [rowMajor, dstOff_cons]
    apply Int.dvd_add _ (rowMajor_dvd es sh o)
    apply Int.dvd_mul_of_dvd_right
    exact Int.natCast_dvd_natCast.2 (Nat.dvd_mul_right _ _)

/-- the elements of a new array do not overlap -/
theorem fresh_apart (es : Nat) (sh : List Nat) : ElemsApart es ((gridIdx sh).map (dstOff (rowMajor es sh))) := by
  intro a ha b hb
  obtain ⟨o, _, rfl⟩ := List.mem_map.1 ha
  obtain ⟨p, _, rfl⟩ := List.mem_map.1 hb
  obtain ⟨x, hx⟩ := rowMajor_dvd es sh o
  obtain ⟨y, hy⟩ := rowMajor_dvd es sh p
  rw [hx, hy]
  rcases Int.lt_trichotomy x y with h | h | h
  · right; left
    have : (es : Int) * (x + 1) ≤ es * y := Int.mul_le_mul_of_nonneg_left (by omega) (by omega)
    rw [Int.mul_add] at this; omega
  · left; rw [h]
  · right; right
    have : (es : Int) * (y + 1) ≤ es * x := Int.mul_le_mul_of_nonneg_left (by omega) (by omega)
    rw [Int.mul_add] at this; omega

end Dynd
