/-
C121: the loops of an assignment.
-/
import Verif.Props.CopySpec

namespace Dynd

/-! ### Along a dimension -/

theorem alongAll_imp {P Q : Int → Prop} {st : Int} (h : ∀ a, P a → Q a) : ∀ {n : Nat} {a : Int}, alongAll P st n a → alongAll Q st n a
  | 0, _, _ => trivial
  | _ + 1, _, hp => ⟨h _ hp.1, alongAll_imp h hp.2⟩

theorem alongAll_mem {g : Int → List Int} {P : Int → Prop} {st : Int} : ∀ {n : Nat} {a : Int},
    (∀ x ∈ alongPlaces g st n a, P x) → alongAll (fun b => ∀ x ∈ g b, P x) st n a
  | 0, _, _ => trivial
  | _ + 1, _, h => ⟨fun x hx => h x (List.mem_append_left _ hx), alongAll_mem fun x hx => h x (List.mem_append_right _ hx)⟩

theorem alongAll_and {P Q : Int → Prop} {st : Int} : ∀ {n : Nat} {a : Int}, alongAll P st n a → alongAll Q st n a →
    alongAll (fun b => P b ∧ Q b) st n a
  | 0, _, _, _ => trivial
  | _ + 1, _, hp, hq => ⟨⟨hp.1, hq.1⟩, alongAll_and hp.2 hq.2⟩

theorem alongPlaces_congr {g g' : Int → List Int} {st : Int} : ∀ {n : Nat} {a : Int}, alongAll (fun b => g' b = g b) st n a →
    alongPlaces g' st n a = alongPlaces g st n a
  | 0, _, _ => rfl
  | _ + 1, _, h => by simp only [alongPlaces]; rw [h.1, alongPlaces_congr h.2]

theorem alongRes_congr {A B : Type} {f f' : Int → A → Res B} {st : Int} : ∀ {n : Nat} {a : Int} {xs : List A}, xs.length = n →
    alongAll (fun b => ∀ x, f' b x = f b x) st n a → alongRes f' st a xs = alongRes f st a xs
  | 0, _, [], _, _ => rfl
  | _ + 1, _, x :: xs, hl, h => by
    simp only [alongRes]
    rw [h.1 x, alongRes_congr (by simpa using hl) h.2]

theorem stretch_length {A : Type} {n : Nat} {xs : List A} (h : xs.length = 1 ∨ xs.length = n) : (stretch n xs).length = n := by
  match xs, h with
  | [], h => rcases h with h | h <;> [cases h; exact h]
  | [x], _ => simp [stretch]
  | _ :: _ :: _, h => rcases h with h | h <;> [(simp at h); exact h]

/-- Only the records of the destination matter. -/
theorem dest_congr {recs recs' : Int → Option (Int × Nat)} (sz : Nat) : ∀ (dm : List UMeta) (d : Int),
    (∀ a ∈ recsAt recs dm d, recs' a = recs a) →
    cellsAt recs' dm d = cellsAt recs dm d ∧ recsAt recs' dm d = recsAt recs dm d ∧
      (NewBelow sz recs dm d → NewBelow sz recs' dm d)
  | [], _, _ => ⟨rfl, rfl, fun h => h⟩
  | .fixed n st :: r, d, h => by
    have h' := alongAll_imp (fun a ha => dest_congr (recs := recs) (recs' := recs') sz r a ha)
      (alongAll_mem (g := recsAt recs r) (P := fun a => recs' a = recs a) h)
    simp only [cellsAt, recsAt, NewBelow]
    refine ⟨alongPlaces_congr (alongAll_imp (fun _ h => h.1) h'), alongPlaces_congr (alongAll_imp (fun _ h => h.2.1) h'), ?_⟩
    intro hn
    exact alongAll_imp (fun _ h => h.2.2.2 h.1) (alongAll_and hn h')
  | .var st o :: r, d, h => by
    have hd : recs' d = recs d := h d (by simp [recsAt])
    simp only [cellsAt, recsAt, NewBelow, hd]
    cases e : recs d with
    | none => exact ⟨rfl, rfl, fun h => h⟩
    | some p =>
      obtain ⟨b, n⟩ := p
      have h2 : ∀ a ∈ alongPlaces (recsAt recs r) st n (b + o), recs' a = recs a := fun a ha => h a (by simp [recsAt, e, ha])
      have h' := alongAll_imp (fun a ha => dest_congr (recs := recs) (recs' := recs') sz r a ha)
        (alongAll_mem (g := recsAt recs r) (P := fun a => recs' a = recs a) h2)
      refine ⟨alongPlaces_congr (alongAll_imp (fun _ h => h.1) h'),
        congrArg (d :: ·) (alongPlaces_congr (alongAll_imp (fun _ h => h.2.1) h')), ?_⟩
      intro hn
      exact alongAll_imp (fun _ h => h.2.2.2 h.1) (alongAll_and hn h')

theorem fill_congr {α β : Type} (op : α → Res β) {recs recs' : Int → Option (Int × Nat)} : ∀ (dm : List UMeta) (d : Int),
    (∀ a ∈ recsAt recs dm d, recs' a = recs a) → ∀ k u, fillWith op recs' dm k d u = fillWith op recs dm k d u
  | [], _, _, k, u => by cases u <;> rfl
  | .fixed n st :: r, d, h, k, u => by
    have h' := alongAll_imp (fun a ha => fill_congr (recs := recs) (recs' := recs') op r a ha)
      (alongAll_mem (g := recsAt recs r) (P := fun a => recs' a = recs a) h)
    simp only [fillWith]
    generalize (if k ≤ r.length then [u] else u.items) = xs
    by_cases hx : xs.length = 1 ∨ xs.length = n
    · rw [if_pos hx, if_pos hx, alongRes_congr (stretch_length hx) (alongAll_imp (fun _ h => h (min k r.length)) h')]
    · rw [if_neg hx, if_neg hx]
  | .var st o :: r, d, h, k, u => by
    have hd : recs' d = recs d := h d (by simp [recsAt])
    simp only [fillWith, hd]
    generalize (if k ≤ r.length then [u] else u.items) = xs
    cases e : recs d with
    | none => rfl
    | some p =>
      obtain ⟨b, n⟩ := p
      have h2 : ∀ a ∈ alongPlaces (recsAt recs r) st n (b + o), recs' a = recs a := fun a ha => h a (by simp [recsAt, e, ha])
      have h' := alongAll_imp (fun a ha => fill_congr (recs := recs) (recs' := recs') op r a ha)
        (alongAll_mem (g := recsAt recs r) (P := fun a => recs' a = recs a) h2)
      simp only []
      by_cases hx : xs.length = 1 ∨ xs.length = n
      · rw [if_pos hx, if_pos hx, alongRes_congr (stretch_length hx) (alongAll_imp (fun _ h => h (min k r.length)) h')]
      · rw [if_neg hx, if_neg hx]

/-- one step of the size 1 is a step of any size -/
theorem places_short {f : Int → List Int} {st st' : Int} {n : Nat} {a : Int} (h : n ≤ 1) :
    alongPlaces f st n a = alongPlaces f st' n a := by
  have : n = 0 ∨ n = 1 := by omega
  rcases this with rfl | rfl <;> simp [alongPlaces]

theorem all_short {P : Int → Prop} {st st' : Int} {n : Nat} {a : Int} (h : n ≤ 1) : alongAll P st n a = alongAll P st' n a := by
  have : n = 0 ∨ n = 1 := by omega
  rcases this with rfl | rfl <;> simp [alongAll]

theorem res_short {A B : Type} {f : Int → A → Res B} {st st' : Int} {a : Int} {xs : List A} (h : xs.length ≤ 1) :
    alongRes f st a xs = alongRes f st' a xs := by
  match xs, h with
  | [], _ => rfl
  | [x], _ => simp [alongRes]

theorem viewList_short {A : Type} {view : Int → Option A} {st st' : Int} {n : Nat} {a : Int} (h : n ≤ 1) :
    viewList view st n a = viewList view st' n a := by
  have : n = 0 ∨ n = 1 := by omega
  rcases this with rfl | rfl <;> simp [viewList]

/-! ### The loop -/

section loop
variable {α β : Type} {op : α → Res β} {sz k : Nat} {dm : List UMeta} {view : Int → Option (NestVal α)}
  {body : Int → Int → UDst β → Res (UDst β)}

/-- what is known about the kernel of the elements -/
def Copies (op : α → Res β) (sz k : Nat) (dm : List UMeta) (view : Int → Option (NestVal α))
    (body : Int → Int → UDst β → Res (UDst β)) : Prop :=
  ∀ (d s : Int) (m : UDst β) u, view s = some u → Ready sz dm d m → Gives dm d m (fillWith op m.recs dm k d u) (body d s m)

theorem ready_head {n : Nat} {st d : Int} {m : UDst β} (h : Ready sz (.fixed (n + 1) st :: dm) d m) : Ready sz dm d m := by
  obtain ⟨h1, h2, h3, h4, h5, h6⟩ := h
  simp only [cellsAt, recsAt, alongPlaces, List.nodup_append, NewBelow, alongAll] at h1 h2 h3 h4 h6
  exact ⟨h1.1, h2.1, fun a ha => h3 a (List.mem_append_left _ ha), fun a ha => h4 a (List.mem_append_left _ ha), h5, h6.1⟩

/-- after the first element: the rest of the destination is as it was -/
theorem tail_recs {n : Nat} {st d : Int} {m m1 : UDst β} {v : NestVal β} (h : Ready sz (.fixed (n + 1) st :: dm) d m)
    (hs : Stores dm d m m1 v) : ∀ a ∈ recsAt m.recs (.fixed n st :: dm) (d + st), m1.recs a = m.recs a := by
  intro a ha
  have h2 := h.recs
  have h4 := h.recsBelow
  simp only [recsAt, alongPlaces, List.nodup_append] at h2 h4 ha
  refine hs.recs a (h4 a (List.mem_append_right _ ha)) (.inl fun hb => ?_)
  exact h2.2.2 a hb a ha rfl

theorem ready_tail {n : Nat} {st d : Int} {m m1 : UDst β} {v : NestVal β} (h : Ready sz (.fixed (n + 1) st :: dm) d m)
    (hs : Stores dm d m m1 v) : Ready sz (.fixed n st :: dm) (d + st) m1 := by
  obtain ⟨c1, c2, c3⟩ := dest_congr sz (.fixed n st :: dm) (d + st) (tail_recs h hs)
  obtain ⟨h1, h2, h3, h4, h5, h6⟩ := h
  have hn := hs.next
  simp only [cellsAt, recsAt, NewBelow, alongAll] at h1 h2 h3 h4 h6 c1 c2 c3
  simp only [alongPlaces, List.nodup_append] at h1 h2 h3 h4
  refine ⟨?_, ?_, ?_, ?_, hs.free, c3 h6.2⟩
  · simp only [cellsAt]; rw [c1]; exact h1.2.1
  · simp only [recsAt]; rw [c2]; exact h2.2.1
  · intro a ha
    simp only [cellsAt] at ha
    rw [c1] at ha
    have := h3 a (List.mem_append_right _ ha)
    omega
  · intro a ha
    simp only [recsAt] at ha
    rw [c2] at ha
    have := h4 a (List.mem_append_right _ ha)
    omega

theorem copyLoop (hb : Copies op sz k dm view body) : ∀ (n : Nat) (st t d s : Int) (m : UDst β) us,
    viewList view t n s = some us → Ready sz (.fixed n st :: dm) d m →
    Gives (.fixed n st :: dm) d m (do let ys ← alongRes (fillWith op m.recs dm k) st d us; pure (.list ys))
      (uLoop body n st t d s m)
  | 0, st, t, d, s, m, us, hu, hr => by
    simp only [viewList, Option.some.injEq] at hu
    subst hu
    exact ⟨m, rfl, Int.le_refl _, hr.free, fun a _ _ => rfl, fun a _ _ => rfl, fun cells recs _ _ => rfl⟩
  | n + 1, st, t, d, s, m, us, hu, hr => by
    simp only [viewList, Option.bind_eq_some_iff, Option.map_eq_some_iff] at hu
    obtain ⟨x, hx, xs, hxs, rfl⟩ := hu
    have h1 := hb d s m x hx (ready_head hr)
    simp only [alongRes, uLoop]
    cases e : fillWith op m.recs dm k d x with
    | throw c =>
      rw [e] at h1
      simp only [Gives] at h1
      rw [h1]
      simp only [Res.bind_throw, Gives]
    | ub =>
      rw [e] at h1
      simp only [Gives] at h1
      rw [h1]
      simp only [Res.bind_ub, Gives]
    | ok v =>
      rw [e] at h1
      obtain ⟨m1, e1, hs⟩ := h1
      rw [e1, Res.bind_ok, Res.bind_ok]
      have h2 := copyLoop hb n st t (d + st) (s + t) m1 xs hxs (ready_tail hr hs)
      have ec : alongRes (fillWith op m1.recs dm k) st (d + st) xs = alongRes (fillWith op m.recs dm k) st (d + st) xs := by
        refine alongRes_congr (viewList_length hxs) ?_
        have := alongAll_mem (P := fun a => m1.recs a = m.recs a) (tail_recs hr hs)
        exact alongAll_imp (fun a ha x => fill_congr op dm a ha k x) this
      rw [ec] at h2
      cases e' : alongRes (fillWith op m.recs dm k) st (d + st) xs with
      | throw c => rw [e'] at h2; exact h2
      | ub => rw [e'] at h2; exact h2
      | ok vs =>
        rw [e'] at h2
        obtain ⟨m2, e2, ht⟩ := h2
        refine ⟨m2, e2, ?_⟩
        obtain ⟨c1, c2, _⟩ := dest_congr sz (.fixed n st :: dm) (d + st) (tail_recs hr hs)
        obtain ⟨h1, h2, h3, h4, h5, h6⟩ := hr
        obtain ⟨t1, t2, t3, t4, t5⟩ := ht
        obtain ⟨s1, s2, s3, s4, s5⟩ := hs
        rw [c1] at t3 t5
        rw [c2] at t4 t5
        have hc : cellsAt m.recs (.fixed (n + 1) st :: dm) d = cellsAt m.recs dm d ++ cellsAt m.recs (.fixed n st :: dm) (d + st) := rfl
        have hq : recsAt m.recs (.fixed (n + 1) st :: dm) d = recsAt m.recs dm d ++ recsAt m.recs (.fixed n st :: dm) (d + st) := rfl
        rw [hc] at h1 h3
        rw [hq] at h2 h4
        rw [List.nodup_append] at h1 h2
        refine ⟨by omega, t2, ?_, ?_, ?_⟩
        · intro a ha hn
          rw [hc, List.mem_append, not_or] at hn
          rw [t3 a (by omega) hn.2, s3 a ha hn.1]
        · intro a ha hn
          rw [hq, List.mem_append, not_or] at hn
          have e1 : m1.recs a = m.recs a := s4 a ha (hn.imp (fun h => h.1) id)
          rw [t4 a (by omega) (hn.imp (fun h => h.2) (fun h => by rw [e1]; exact h)), e1]
        · intro cells recs hcl hrc
          rw [hc] at hcl
          rw [hq] at hrc
          have v1 : viewArr cells recs dm d = some v := by
            apply s5
            · intro a ha
              have : m2.cells a = m1.cells a := by
                apply t3 a
                · rcases ha with ha | ha
                  · have := h3 a (List.mem_append_left _ ha); omega
                  · omega
                · intro hb
                  rcases ha with ha | ha
                  · exact h1.2.2 a ha a hb rfl
                  · have := h3 a (List.mem_append_right _ hb); omega
              rw [← this]
              refine hcl a ?_
              rcases ha with ha | ha
              · exact .inl (List.mem_append_left _ ha)
              · right; omega
            · intro a ha
              have : m2.recs a = m1.recs a := by
                apply t4 a
                · rcases ha with ha | ha
                  · have := h4 a (List.mem_append_left _ ha); omega
                  · omega
                · left
                  intro hb
                  rcases ha with ha | ha
                  · exact h2.2.2 a ha a hb rfl
                  · have := h4 a (List.mem_append_right _ hb); omega
              rw [← this]
              refine hrc a ?_
              rcases ha with ha | ha
              · exact .inl (List.mem_append_left _ ha)
              · right; omega
          have v2 := t5 cells recs (fun a ha => hcl a (by
              rcases ha with ha | ha
              · exact .inl (List.mem_append_right _ ha)
              · right; omega)) (fun a ha => hrc a (by
              rcases ha with ha | ha
              · exact .inl (List.mem_append_right _ ha)
              · right; omega))
          simp only [viewArr, viewList, Option.map_eq_some_iff] at v2 ⊢
          obtain ⟨ws, v2, ew⟩ := v2
          cases ew
          exact ⟨v :: vs, by rw [v1, v2]; rfl, rfl⟩

end loop

end Dynd
