/-
C121: the kernels of an assignment, one dimension after the other.
-/
import Verif.Props.CopySteps

namespace Dynd

/-! ### New memory -/

theorem along_region_all {P : Int → Prop} {w : Nat} : ∀ (n : Nat) (a : Int),
    (∀ b, a ≤ b → b + w ≤ a + (n * w : Nat) → P b) → alongAll P w n a
  | 0, _, _ => trivial
  | n + 1, a, h => by
    have ew : ((n + 1) * w : Nat) = w + n * w := by rw [Nat.succ_mul]; omega
    rw [ew] at h
    refine ⟨h a (Int.le_refl _) (by omega), along_region_all n (a + w) fun b h1 h2 => h b (by omega) (by omega)⟩

theorem along_region {g : Int → List Int} {w : Nat} : ∀ (n : Nat) (a : Int),
    alongAll (fun b => (g b).Nodup ∧ ∀ x ∈ g b, b ≤ x ∧ x < b + w) w n a →
    (alongPlaces g w n a).Nodup ∧ ∀ x ∈ alongPlaces g w n a, a ≤ x ∧ x < a + (n * w : Nat)
  | 0, _, _ => ⟨List.nodup_nil, fun x h => by cases h⟩
  | n + 1, a, h => by
    have ew : ((n + 1) * w : Nat) = w + n * w := by rw [Nat.succ_mul]; omega
    obtain ⟨i1, i2⟩ := along_region n (a + w) h.2
    rw [ew]
    simp only [alongPlaces, List.nodup_append, List.mem_append]
    refine ⟨⟨h.1.1, i1, ?_⟩, ?_⟩
    · intro x hx y hy e
      have := h.1.2 x hx
      have := i2 y hy
      omega
    · rintro x (hx | hx)
      · have := h.1.2 x hx; omega
      · have := i2 x hx; omega

theorem fresh_places {recs : Int → Option (Int × Nat)} {sz : Nat} (hsz : 0 < sz) : ∀ (ds : List (Option Nat)) (a : Int),
    (∀ x, a ≤ x → x < a + dataSize sz ds → recs x = none) →
    ((cellsAt recs (freshMeta sz ds) a).Nodup ∧ ∀ x ∈ cellsAt recs (freshMeta sz ds) a, a ≤ x ∧ x < a + dataSize sz ds) ∧
    ((recsAt recs (freshMeta sz ds) a).Nodup ∧ ∀ x ∈ recsAt recs (freshMeta sz ds) a, a ≤ x ∧ x < a + dataSize sz ds) ∧
    NewBelow sz recs (freshMeta sz ds) a
  | [], a, _ => by
    simp only [freshMeta, cellsAt, recsAt, dataSize, NewBelow]
    refine ⟨⟨by simp, ?_⟩, ⟨by simp, by simp⟩, trivial⟩
    intro x hx
    simp only [List.mem_singleton] at hx
    subst hx
    omega
  | some n :: ds, a, h => by
    simp only [freshMeta, cellsAt, recsAt, dataSize, NewBelow] at h ⊢
    have ha := along_region_all (P := fun b => _ ∧ _ ∧ _) (w := dataSize sz ds) n a (fun b h1 h2 =>
      fresh_places (recs := recs) hsz ds b fun x h3 h4 => h x (by omega) (by omega))
    exact ⟨along_region n a (alongAll_imp (fun _ h => h.1) ha), along_region n a (alongAll_imp (fun _ h => h.2.1) ha),
      alongAll_imp (fun _ h => h.2.2) ha⟩
  | none :: ds, a, h => by
    have hn : recs a = none := h a (Int.le_refl _) (by simp only [dataSize]; omega)
    simp only [freshMeta, cellsAt, recsAt, dataSize, NewBelow, hn]
    refine ⟨⟨by simp, by simp⟩, ⟨by simp, ?_⟩, ds, rfl, rfl⟩
    intro x hx
    simp only [List.mem_singleton] at hx
    subst hx
    omega

theorem alongRes_const {A B : Type} {f : Int → A → Res B} {F : A → Res B} {st : Int} : ∀ {n : Nat} {a : Int} {xs : List A},
    xs.length = n → alongAll (fun b => ∀ x, f b x = F x) st n a → ∀ st' a', alongRes f st a xs = alongRes (fun _ x => F x) st' a' xs
  | 0, _, [], _, _, _, _ => rfl
  | _ + 1, _, x :: xs, hl, h, st', a' => by
    simp only [alongRes]
    rw [h.1 x, alongRes_const (by simpa using hl) h.2 st' (a' + st')]

theorem alongAll_of {P : Int → Prop} (h : ∀ a, P a) {st : Int} : ∀ (n : Nat) (a : Int), alongAll P st n a
  | 0, _ => trivial
  | n + 1, a => ⟨h a, alongAll_of h n (a + st)⟩

/-- what is stored in new memory does not depend on where it is -/
theorem fresh_fill {α β : Type} (op : α → Res β) {sz : Nat} : ∀ (ds : List (Option Nat)) (recs : Int → Option (Int × Nat)) (a : Int),
    (∀ x, a ≤ x → x < a + dataSize sz ds → recs x = none) →
    ∀ k u, fillWith op recs (freshMeta sz ds) k a u = fillWith op (fun _ => none) (freshMeta sz ds) k 0 u
  | [], _, _, _, k, u => by cases u <;> rfl
  | some n :: ds, recs, a, h, k, u => by
    simp only [freshMeta, fillWith, dataSize] at h ⊢
    generalize (if k ≤ (freshMeta sz ds).length then [u] else u.items) = xs
    by_cases hx : xs.length = 1 ∨ xs.length = n
    · rw [if_pos hx, if_pos hx]
      have e1 := alongRes_const (f := fillWith op recs (freshMeta sz ds) (min k (freshMeta sz ds).length))
        (stretch_length hx) (along_region_all (P := fun b => ∀ x, _ = _) (w := dataSize sz ds) n a fun b h1 h2 =>
          fun x => fresh_fill op ds recs b (fun y h3 h4 => h y (by omega) (by omega)) (min k (freshMeta sz ds).length) x) 0 0
      have e2 := alongRes_const (f := fillWith op (fun _ => none) (freshMeta sz ds) (min k (freshMeta sz ds).length))
        (stretch_length hx) (along_region_all (P := fun b => ∀ x, _ = _) (w := dataSize sz ds) n 0 fun b _ _ =>
          fun x => fresh_fill op ds (fun _ => none) b (fun _ _ _ => rfl) (min k (freshMeta sz ds).length) x) 0 0
      rw [e1, e2]
    · rw [if_neg hx, if_neg hx]
  | none :: ds, recs, a, h, k, u => by
    have hn : recs a = none := h a (Int.le_refl _) (by simp only [dataSize]; omega)
    simp only [freshMeta, fillWith, hn]

/-! ### One dimension -/

section levels
variable {α β : Type} {op : α → Res β} {src : USrc α} {sz k k' : Nat} {dm sm : List UMeta} {r : List CpLevel}

theorem stores_var {n : Nat} {st st' o b d : Int} {m m' : UDst β} {v : NestVal β} (hst : st' = st ∨ n ≤ 1)
    (hr : Ready sz (.var st o :: dm) d m) (hd : m.recs d = some (b, n)) (h : Stores (.fixed n st' :: dm) (b + o) m m' v) :
    Stores (.var st o :: dm) d m m' v := by
  have ec : cellsAt m.recs (.fixed n st' :: dm) (b + o) = cellsAt m.recs (.var st o :: dm) d := by
    simp only [cellsAt, hd]
    rcases hst with rfl | hn <;> [rfl; exact places_short hn]
  have er : recsAt m.recs (.var st o :: dm) d = d :: recsAt m.recs (.fixed n st' :: dm) (b + o) := by
    simp only [recsAt, hd]
    rcases hst with rfl | hn <;> [rfl; exact congrArg (d :: ·) (places_short hn)]
  obtain ⟨h1, h2, h3, h4, h5⟩ := h
  rw [ec] at h3 h5
  refine ⟨h1, h2, h3, ?_, ?_⟩
  · intro a ha hn
    refine h4 a ha (hn.imp (fun h => ?_) id)
    rw [er] at h
    exact fun hb => h (List.mem_cons_of_mem _ hb)
  · intro cells recs hc hq
    rw [er] at hq
    have v1 := h5 cells recs hc (fun a ha => hq a (ha.imp (List.mem_cons_of_mem _) id))
    have hd' : recs d = some (b, n) := by
      have hlt := hr.recsBelow d (by rw [er]; exact List.mem_cons_self)
      rw [hq d (.inl List.mem_cons_self), h4 d hlt (.inr (by rw [hd]; rfl)), hd]
    simp only [viewArr] at v1 ⊢
    rw [hd']
    simp only [Option.bind_some]
    rw [← v1]
    rcases hst with rfl | hn <;> [rfl; rw [viewList_short hn]]

theorem ready_var {n : Nat} {st st' o b d : Int} {m : UDst β} (hst : st' = st ∨ n ≤ 1)
    (hr : Ready sz (.var st o :: dm) d m) (hd : m.recs d = some (b, n)) : Ready sz (.fixed n st' :: dm) (b + o) m := by
  have ec : cellsAt m.recs (.fixed n st' :: dm) (b + o) = cellsAt m.recs (.var st o :: dm) d := by
    simp only [cellsAt, hd]
    rcases hst with rfl | hn <;> [rfl; exact places_short hn]
  have er : recsAt m.recs (.var st o :: dm) d = d :: recsAt m.recs (.fixed n st' :: dm) (b + o) := by
    simp only [recsAt, hd]
    rcases hst with rfl | hn <;> [rfl; exact congrArg (d :: ·) (places_short hn)]
  obtain ⟨h1, h2, h3, h4, h5, h6⟩ := hr
  rw [← ec] at h1 h3
  rw [er] at h2 h4
  refine ⟨h1, (List.nodup_cons.1 h2).2, h3, fun a ha => h4 a (List.mem_cons_of_mem _ ha), h5, ?_⟩
  simp only [NewBelow, hd] at h6 ⊢
  rcases hst with rfl | hn <;> [exact h6; (rw [all_short hn]; exact h6)]

/-- a destination dimension of `n` elements, the elements of the source being `xs` -/
theorem gives_fixed (hb : Copies op sz k dm (val src sm) (runCp op src r)) {n : Nat} {st t d s : Int} {m : UDst β}
    {u : NestVal α} {xs : List (NestVal α)} (hx : xs = if k' ≤ dm.length then [u] else u.items) (hk : min k' dm.length = k)
    (hl : xs.length = 1 ∨ xs.length = n) (hv : viewList (val src sm) t n s = some (stretch n xs))
    (hr : Ready sz (.fixed n st :: dm) d m) :
    Gives (.fixed n st :: dm) d m (fillWith op m.recs (.fixed n st :: dm) k' d u) (uLoop (runCp op src r) n st t d s m) := by
  simp only [fillWith, ← hx, hk]
  rw [if_pos hl]
  exact copyLoop hb n st t d s m _ hv hr

theorem gives_row (hb : Copies op sz k dm (val src sm) (runCp op src r)) {n : Nat} {st o b t d s : Int} {m : UDst β}
    {u : NestVal α} {xs : List (NestVal α)} (hx : xs = if k' ≤ dm.length then [u] else u.items) (hk : min k' dm.length = k)
    (hl : xs.length = 1 ∨ xs.length = n) (hv : viewList (val src sm) t n s = some (stretch n xs))
    (hr : Ready sz (.var st o :: dm) d m) (hd : m.recs d = some (b, n)) :
    Gives (.var st o :: dm) d m (fillWith op m.recs (.var st o :: dm) k' d u)
      (uLoop (runCp op src r) n (if n ≤ 1 then 0 else st) t (b + o) s m) := by
  have hst : (if n ≤ 1 then 0 else st) = st ∨ n ≤ 1 := by
    by_cases h : n ≤ 1
    · exact .inr h
    · exact .inl (if_neg h)
  have h := copyLoop hb n (if n ≤ 1 then 0 else st) t (b + o) s m _ hv (ready_var hst hr hd)
  have e : alongRes (fillWith op m.recs dm k) (if n ≤ 1 then 0 else st) (b + o) (stretch n xs) =
      alongRes (fillWith op m.recs dm k) st (b + o) (stretch n xs) := by
    rcases hst with h | h
    · rw [h]
    · exact res_short (by rw [stretch_length hl]; exact h)
  rw [e] at h
  simp only [fillWith, hd, ← hx, hk]
  rw [if_pos hl]
  revert h
  cases alongRes (fillWith op m.recs dm k) st (b + o) (stretch n xs) with
  | throw c => exact fun h => h
  | ub => exact fun h => h
  | ok v => rintro ⟨m', e', hs⟩; exact ⟨m', e', stores_var hst hr hd hs⟩

/-- memory for a new row -/
theorem gives_new (hsz : 0 < sz) (hb : Copies op sz k dm (val src sm) (runCp op src r)) {n : Nat} {st t d s : Int} {m : UDst β}
    {u : NestVal α} {xs : List (NestVal α)} (hx : xs = if k' ≤ dm.length then [u] else u.items) (hk : min k' dm.length = k)
    (hl : xs.length = n) (hv : viewList (val src sm) t n s = some xs)
    (hr : Ready sz (.var st 0 :: dm) d m) (hd : m.recs d = none) :
    Gives (.var st 0 :: dm) d m (fillWith op m.recs (.var st 0 :: dm) k' d u)
      (uLoop (runCp op src r) n (if n ≤ 1 then 0 else st) t m.next s
        { m with recs := putAt m.recs d (m.next, n), next := m.next + n * st }) := by
  obtain ⟨h1, h2, h3, h4, h5, h6⟩ := hr
  simp only [NewBelow, hd] at h6
  obtain ⟨ds, rfl, rfl⟩ := h6
  have hdn : d < m.next := h4 d (by simp [recsAt])
  generalize hm : ({ m with recs := putAt m.recs d (m.next, n), next := m.next + n * dataSize sz ds } : UDst β) = m0
  generalize hw : dataSize sz ds = w at *
  have n0 : m0.next = m.next + (n * w : Nat) := by rw [← hm]; show _ + _ * _ = _; rw [Int.natCast_mul]
  have r0 : ∀ a, m0.recs a = if a = d then some (m.next, n) else m.recs a := by intro a; rw [← hm]; rfl
  have c0 : m0.cells = m.cells := by rw [← hm]
  have free : ∀ a, m.next ≤ a → m0.recs a = none := fun a ha => by rw [r0, if_neg (by omega)]; exact h5 a ha
  have hst : (if n ≤ 1 then 0 else (w : Int)) = w ∨ n ≤ 1 := by
    by_cases h : n ≤ 1
    · exact .inr h
    · exact .inl (if_neg h)
  generalize (if n ≤ 1 then 0 else (w : Int)) = st' at hst
  have hp := fresh_places (recs := m0.recs) hsz (some n :: ds) m.next (fun x h _ => free x h)
  simp only [freshMeta, dataSize, hw] at hp
  obtain ⟨⟨p1, p2⟩, ⟨q1, q2⟩, hnew⟩ := hp
  have ec : cellsAt m0.recs (.fixed n st' :: freshMeta sz ds) m.next = cellsAt m0.recs (.fixed n w :: freshMeta sz ds) m.next := by
    rcases hst with rfl | hn <;> [rfl; exact places_short hn]
  have er : recsAt m0.recs (.fixed n st' :: freshMeta sz ds) m.next = recsAt m0.recs (.fixed n w :: freshMeta sz ds) m.next := by
    rcases hst with rfl | hn <;> [rfl; exact places_short hn]
  have hr0 : Ready sz (.fixed n st' :: freshMeta sz ds) m.next m0 := by
    refine ⟨by rw [ec]; exact p1, by rw [er]; exact q1, ?_, ?_, fun a ha => free a (by omega), ?_⟩
    · intro a ha; rw [ec] at ha; have := p2 a ha; omega
    · intro a ha; rw [er] at ha; have := q2 a ha; omega
    · simp only [NewBelow] at hnew ⊢
      rcases hst with rfl | hn <;> [exact hnew; (rw [all_short hn]; exact hnew)]
  have h := copyLoop hb n st' t m.next s m0 _ hv hr0
  have hall : alongAll (fun b => ∀ x, fillWith op m0.recs (freshMeta sz ds) k b x =
      fillWith op (fun _ => none) (freshMeta sz ds) k 0 x) st' n m.next := by
    have : alongAll (fun b => ∀ x, fillWith op m0.recs (freshMeta sz ds) k b x =
        fillWith op (fun _ => none) (freshMeta sz ds) k 0 x) (w : Int) n m.next :=
      along_region_all n m.next fun b h1 h2 x => fresh_fill op ds m0.recs b (fun y h3 _ => free y (by omega)) k x
    rcases hst with rfl | hn <;> [exact this; (rw [all_short hn]; exact this)]
  have e : alongRes (fillWith op m0.recs (freshMeta sz ds) k) st' m.next xs =
      alongRes (fillWith op (fun _ => none) (freshMeta sz ds) k) 0 0 xs := by
    rw [alongRes_const hl hall 0 0]
    refine (alongRes_const hl (alongAll_of (fun b x => ?_) n 0) 0 0).symm
    rw [fresh_fill op ds (fun _ => none) b (fun _ _ _ => rfl) k x]
  rw [e] at h
  simp only [fillWith, hd, ← hx, hk]
  rw [if_neg (by simp)]
  revert h
  cases alongRes (fillWith op (fun _ => none) (freshMeta sz ds) k) 0 0 xs with
  | throw c => exact fun h => h
  | ub => exact fun h => h
  | ok v =>
    rintro ⟨m', e', t1, t2, t3, t4, t5⟩
    rw [ec] at t3 t5
    rw [er] at t4 t5
    have hcv : cellsAt m.recs (.var (w : Int) 0 :: freshMeta sz ds) d = [] := by simp [cellsAt, hd]
    have hrv : recsAt m.recs (.var (w : Int) 0 :: freshMeta sz ds) d = [d] := by simp [recsAt, hd]
    refine ⟨m', e', by omega, t2, ?_, ?_, ?_⟩
    · intro a ha _
      rw [t3 a (by omega) (fun hb => by have := p2 a hb; omega), c0]
    · intro a ha hn
      rw [hrv] at hn
      have hne : a ≠ d := by
        rintro rfl
        rcases hn with hn | hn
        · exact hn (List.mem_singleton.2 rfl)
        · rw [hd] at hn; cases hn
      rw [t4 a (by omega) (.inl fun hb => by have := q2 a hb; omega), r0, if_neg hne]
    · intro cells recs hc hq
      rw [hrv] at hq
      have hd' : recs d = some (m.next, n) := by
        rw [hq d (.inl (List.mem_singleton.2 rfl)), t4 d (by omega) (.inl fun hb => by have := q2 d hb; omega), r0, if_pos rfl]
      have v1 := t5 cells recs (fun a ha => hc a (.inr (by
          rcases ha with ha | ha
          · have := p2 a ha; omega
          · omega))) (fun a ha => hq a (.inr (by
          rcases ha with ha | ha
          · have := q2 a ha; omega
          · omega)))
      simp only [viewArr] at v1 ⊢
      rw [hd']
      simp only [Option.bind_some, Int.add_zero]
      rw [← v1]
      rcases hst with rfl | hn <;> [rfl; rw [viewList_short hn]]

end levels

end Dynd
