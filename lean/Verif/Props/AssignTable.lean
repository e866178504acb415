/-
C117: the overload table of `nd::assign`: it is built without an error, in a certain order, and for every pair of
concrete types the overload chosen is determined.
-/
import Verif.Model.AssignFn
import Verif.Props.DispatchProps
import Verif.Props.MatchProps

namespace Dynd

/-! ### Sorting when all edges lead to one vertex -/

/-- The order in which the vertices are finished when every edge leads to the vertex `hub`. -/
def hubFinish {α : Type} (isHub toHub : α → Bool) (hub : α) : Bool → List α → List α
  | _, [] => []
  | d, v :: r =>
    if isHub v then (if d then hubFinish isHub toHub hub true r else v :: hubFinish isHub toHub hub true r)
    else if toHub v && !d then hub :: v :: hubFinish isHub toHub hub true r
    else v :: hubFinish isHub toHub hub d r

/-- Finishing vertex `i`. -/
def pushV {α : Type} (verts : List α) (t : TState α) (i : Nat) : TState α :=
  { marks := t.marks.set i 2, res := t.res.set t.pos verts[i]?, pos := t.pos - 1 }

theorem visit_done {α : Type} {verts : List α} {edges : List (List Nat)} {fuel i : Nat} {t : TState α}
    (hm : t.marks[i]? = some 2) (he : i < edges.length) (hv : i < verts.length) :
    topoVisit verts edges (fuel + 1) i t = .ok t := by
  simp [topoVisit, hm, he, hv]

theorem forEach_noop {σ : Type} (f : Nat → σ → Res σ) (s : σ) (js : List Nat) (h : ∀ j ∈ js, f j s = .ok s) :
    forEach f js s = .ok s := by
  induction js with
  | nil => rfl
  | cons j js ih =>
    simp only [forEach]
    rw [h j (by simp), Res.bind_ok]
    exact ih (fun j hj => h j (by simp [hj]))

theorem visit_leaf {α : Type} {verts : List α} {edges : List (List Nat)} {fuel i : Nat} {t : TState α}
    (hm : t.marks[i]? = some 0) (he : edges[i]? = some []) (hv : i < verts.length) :
    topoVisit verts edges (fuel + 1) i t = .ok (pushV verts t i) := by
  simp [topoVisit, hm, he, hv, forEach, pushV, List.set_set]

theorem visit_after {α : Type} {verts : List α} {edges : List (List Nat)} {fuel i s : Nat} {t : TState α} {es : List Nat}
    (hm : t.marks[i]? = some 0) (he : edges[i]? = some es) (hes : ∀ j ∈ es, j = s) (hv : i < verts.length)
    (hs : t.marks[s]? = some 2) (hse : s < edges.length) (hsv : s < verts.length) (his : i ≠ s) :
    topoVisit verts edges (fuel + 2) i t = .ok (pushV verts t i) := by
  have h1 : forEach (fun j u => topoVisit verts edges (fuel + 1) j u) es { t with marks := t.marks.set i 1 } =
      .ok { t with marks := t.marks.set i 1 } := by
    apply forEach_noop
    intro j hj
    rw [hes j hj]
    exact visit_done (by simp only []; rw [List.getElem?_set_ne his]; exact hs) hse hsv
  rw [topoVisit]
  rw [hm, he, List.getElem?_eq_getElem hv]
  simp only [show ¬ ((0:Nat) = 1) by omega, if_false, show ¬ ((0:Nat) = 2) by omega]
  rw [h1, Res.bind_ok]
  simp [pushV, List.set_set, hv]

theorem visit_first {α : Type} {verts : List α} {edges : List (List Nat)} {fuel i s : Nat} {t : TState α} {es : List Nat}
    (hm : t.marks[i]? = some 0) (he : edges[i]? = some es) (hes : ∀ j ∈ es, j = s) (hne : es ≠ [])
    (hv : i < verts.length) (hs : t.marks[s]? = some 0) (hse : edges[s]? = some []) (hsv : s < verts.length)
    (his : i ≠ s) :
    topoVisit verts edges (fuel + 2) i t = .ok (pushV verts (pushV verts t s) i) := by
  have hsl : s < edges.length := (List.getElem?_eq_some_iff.1 hse).1
  have hml : s < t.marks.length := (List.getElem?_eq_some_iff.1 hs).1
  have h1 : forEach (fun j u => topoVisit verts edges (fuel + 1) j u) es { t with marks := t.marks.set i 1 } =
      .ok (pushV verts { t with marks := t.marks.set i 1 } s) := by
    cases es with
    | nil => exact absurd rfl hne
    | cons j js =>
      simp only [forEach]
      have hj : j = s := hes j (by simp)
      rw [hj, visit_leaf (by simp only []; rw [List.getElem?_set_ne his]; exact hs) hse hsv, Res.bind_ok]
      apply forEach_noop
      intro j hj
      rw [hes j (by simp [hj])]
      refine visit_done ?_ hsl hsv
      simp only [pushV]
      rw [List.getElem?_set_self (by simpa using hml)]
  rw [topoVisit]
  rw [hm, he, List.getElem?_eq_getElem hv]
  simp only [show ¬ ((0:Nat) = 1) by omega, if_false, show ¬ ((0:Nat) = 2) by omega]
  rw [h1, Res.bind_ok]
  simp only [pushV, Res.pure_eq]
  rw [List.set_comm _ _ (show i ≠ s from his), List.set_set, List.set_comm _ _ (show s ≠ i from fun h => his h.symm),
    List.getElem?_eq_getElem hv]

/-- the marks after finishing a list of vertices -/
theorem foldl_push_marks {α : Type} (verts : List α) (o : List Nat) (t : TState α) (x : Nat) :
    (o.foldl (pushV verts) t).marks[x]? =
      if x ∈ o ∧ x < t.marks.length then some 2 else t.marks[x]? := by
  induction o generalizing t with
  | nil => simp
  | cons a o ih =>
    rw [List.foldl_cons, ih]
    simp only [pushV, List.length_set, List.mem_cons]
    by_cases hx : x = a
    · subst hx
      by_cases hl : x < t.marks.length
      · simp [hl]
      · simp [hl]
    · rw [List.getElem?_set_ne (fun h => hx h.symm)]
      simp [hx]

theorem foldl_push_len {α : Type} (verts : List α) (o : List Nat) (t : TState α) :
    (o.foldl (pushV verts) t).marks.length = t.marks.length := by
  induction o generalizing t with
  | nil => rfl
  | cons a o ih => rw [List.foldl_cons, ih]; simp [pushV]

/-- Writing from the end of the output to its beginning. -/
theorem foldl_push_res {α : Type} (verts : List α) (o : List Nat) (t : TState α) (pre suf : List (Option α))
    (hr : t.res = pre ++ suf) (hl : pre.length = o.length) (hp : t.pos = o.length - 1) :
    (o.foldl (pushV verts) t).res = (o.reverse.map fun i => verts[i]?) ++ suf := by
  induction o generalizing t pre suf with
  | nil =>
    have : pre = [] := List.length_eq_zero_iff.1 hl
    subst this; simpa using hr
  | cons a o ih =>
    rw [List.foldl_cons]
    obtain ⟨pre', x, rfl⟩ : ∃ p x, pre = p ++ [x] := by
      rcases List.eq_nil_or_concat pre with h | ⟨p, x, h⟩
      · subst h; simp at hl
      · exact ⟨p, x, by simpa using h⟩
    have hl' : pre'.length = o.length := by simpa using hl
    rw [ih (pushV verts t a) pre' (verts[a]? :: suf)]
    · simp
    · simp only [pushV, hr, hp]
      have : (a :: o).length - 1 = pre'.length := by simp [hl']
      rw [this, List.append_assoc, List.set_append_right _ _ (Nat.le_refl _)]
      simp
    · exact hl'
    · simp [pushV, hp]

/-- The indices in finishing order. -/
def hubIdx (toHub : Nat → Bool) (s : Nat) : Bool → List Nat → List Nat
  | _, [] => []
  | d, i :: r =>
    if i = s then (if d then hubIdx toHub s true r else i :: hubIdx toHub s true r)
    else if toHub i && !d then s :: i :: hubIdx toHub s true r
    else i :: hubIdx toHub s d r

theorem hub_forEach {α : Type} {verts : List α} {edges : List (List Nat)} {s : Nat} {toHub : Nat → Bool} {fuel : Nat}
    (hel : edges.length = verts.length) (hsv : s < verts.length)
    (hse : edges[s]? = some [])
    (he : ∀ i es, edges[i]? = some es → (∀ j ∈ es, j = s) ∧ (toHub i = true ↔ es ≠ [])) :
    ∀ (js : List Nat) (d : Bool) (t : TState α), js.Nodup → (∀ j ∈ js, j < verts.length) → t.marks.length = verts.length →
      (∀ j ∈ js, j ≠ s → t.marks[j]? = some 0) → (t.marks[s]? = some (if d then 2 else 0)) →
      forEach (fun i u => topoVisit verts edges (fuel + 2) i u) js t = .ok ((hubIdx toHub s d js).foldl (pushV verts) t) := by
  intro js
  induction js with
  | nil => intro d t _ _ _ _ _; rfl
  | cons i js ih =>
    intro d t hnd hlt hml hm0 hms
    simp only [List.nodup_cons] at hnd
    have hi := hlt i (by simp)
    simp only [forEach, hubIdx]
    have hlt' : ∀ j ∈ js, j < verts.length := fun j hj => hlt j (by simp [hj])
    have frame : ∀ (u : TState α) (x : Nat), x ∉ js → (∀ y, y ≠ x → y ≠ s → u.marks[y]? = t.marks[y]?) →
        ∀ j ∈ js, j ≠ s → u.marks[j]? = some 0 := by
      intro u x hx hu j hj hjs
      rw [hu j (fun h => hx (h ▸ hj)) hjs]
      exact hm0 j (by simp [hj]) hjs
    by_cases his : i = s
    · subst his
      rw [if_pos rfl]
      cases d with
      | true =>
        simp only [if_true] at hms ⊢
        rw [visit_done hms (by omega) hi, Res.bind_ok]
        exact ih true t hnd.2 hlt' hml (fun j hj hjs => hm0 j (by simp [hj]) hjs) (by simpa using hms)
      | false =>
        simp only [Bool.false_eq_true, if_false] at hms ⊢
        rw [visit_leaf hms hse hi, Res.bind_ok, List.foldl_cons]
        refine ih true _ hnd.2 hlt' (by simpa [pushV] using hml) ?_ ?_
        · refine frame _ i hnd.1 (fun y hy _ => ?_)
          simp only [pushV]; rw [List.getElem?_set_ne (fun h => hy h.symm)]
        · simp only [pushV, if_true]; rw [List.getElem?_set_self (by omega)]
    · rw [if_neg his]
      obtain ⟨es, hes⟩ : ∃ es, edges[i]? = some es := ⟨_, List.getElem?_eq_getElem (by omega)⟩
      obtain ⟨h1, h2⟩ := he i es hes
      have hmi : t.marks[i]? = some 0 := hm0 i (by simp) his
      cases d with
      | true =>
        simp only [if_true] at hms
        simp only [Bool.not_true, Bool.and_false, Bool.false_eq_true, if_false]
        rw [visit_after hmi hes h1 hi hms (by omega) hsv his, Res.bind_ok, List.foldl_cons]
        refine ih true _ hnd.2 hlt' (by simpa [pushV] using hml) ?_ ?_
        · refine frame _ i hnd.1 (fun y hy _ => ?_)
          simp only [pushV]; rw [List.getElem?_set_ne (fun h => hy h.symm)]
        · simp only [pushV, if_true]; rw [List.getElem?_set_ne his]; exact hms
      | false =>
        simp only [Bool.false_eq_true, if_false] at hms
        simp only [Bool.not_false, Bool.and_true]
        by_cases ht : toHub i = true
        · rw [if_pos ht, visit_first hmi hes h1 (h2.1 ht) hi hms hse hsv his, Res.bind_ok, List.foldl_cons, List.foldl_cons]
          refine ih true _ hnd.2 hlt' (by simpa [pushV] using hml) ?_ ?_
          · refine frame _ i hnd.1 (fun y hy hys => ?_)
            simp only [pushV]; rw [List.getElem?_set_ne (fun h => hy h.symm), List.getElem?_set_ne (fun h => hys h.symm)]
          · simp only [pushV, if_true]; rw [List.getElem?_set_ne his, List.getElem?_set_self (by omega)]
        · rw [if_neg ht]
          have hes0 : es = [] := by
            by_cases h : es = []
            · exact h
            · exact absurd (h2.2 h) ht
          rw [visit_leaf hmi (hes0 ▸ hes) hi, Res.bind_ok, List.foldl_cons]
          refine ih false _ hnd.2 hlt' (by simpa [pushV] using hml) ?_ ?_
          · refine frame _ i hnd.1 (fun y hy _ => ?_)
            simp only [pushV]; rw [List.getElem?_set_ne (fun h => hy h.symm)]
          · simp only [pushV, Bool.false_eq_true, if_false]; rw [List.getElem?_set_ne his]; exact hms

theorem hubIdx_length {toHub : Nat → Bool} {s : Nat} : ∀ (js : List Nat) (d : Bool), js.Nodup →
    (s ∈ js ∨ d = true ∨ ∀ j ∈ js, toHub j = false) →
    (hubIdx toHub s d js).length + (if d = true ∧ s ∈ js then 1 else 0) = js.length
  | [], d, _, _ => by simp [hubIdx]
  | i :: js, d, hnd, h => by
    simp only [List.nodup_cons] at hnd
    simp only [hubIdx]
    by_cases his : i = s
    · subst his
      have ih := hubIdx_length (toHub := toHub) (s := i) js true hnd.2 (by simp)
      simp only [hnd.1, and_false, if_false, Nat.add_zero] at ih
      cases d <;> simp [ih]
    · rw [if_neg his]
      have hm : s ∈ i :: js ↔ s ∈ js := by simp [Ne.symm his]
      simp only [hm]
      cases d with
      | true =>
        have ih := hubIdx_length (toHub := toHub) (s := s) js true hnd.2 (by simp)
        simp only [Bool.not_true, Bool.and_false, Bool.false_eq_true, if_false, List.length_cons]
        simp only [] at ih ⊢
        omega
      | false =>
        simp only [Bool.not_false, Bool.and_true, Bool.false_eq_true, false_and, if_false, Nat.add_zero]
        by_cases ht : toHub i = true
        · rw [if_pos ht]
          have hs : s ∈ js := by
            rcases h with h | h | h
            · exact hm.1 h
            · cases h
            · rw [h i (by simp)] at ht; cases ht
          have ih := hubIdx_length (toHub := toHub) (s := s) js true hnd.2 (by simp)
          simp only [hs, and_self, if_true] at ih
          simp only [List.length_cons]; omega
        · rw [if_neg ht]
          have ih := hubIdx_length (toHub := toHub) (s := s) js false hnd.2 (by
            rcases h with h | h | h
            · exact Or.inl (hm.1 h)
            · cases h
            · exact Or.inr (Or.inr (fun j hj => h j (by simp [hj]))))
          simp at ih
          simp [ih]

theorem hub_topoSort {α : Type} {verts : List α} {edges : List (List Nat)} {s : Nat} {toHub : Nat → Bool}
    {out : List (Option α)} (hout : out.length = verts.length)
    (hel : edges.length = verts.length) (hsv : s < verts.length)
    (hse : edges[s]? = some [])
    (he : ∀ i es, edges[i]? = some es → (∀ j ∈ es, j = s) ∧ (toHub i = true ↔ es ≠ [])) :
    topoSort verts edges out =
      .ok ((hubIdx toHub s false (List.range verts.length)).reverse.map fun i => verts[i]?) := by
  unfold topoSort
  obtain ⟨f, hf⟩ : ∃ f, verts.length + 1 = f + 2 := ⟨verts.length - 1, by omega⟩
  rw [if_neg (by omega), hf]
  rw [hub_forEach (toHub := toHub) hel hsv hse he (List.range verts.length) false _ List.nodup_range (by simp) (by simp)
    (by intro j hj _; simp only [List.mem_range] at hj; simp [hj]) (by simp [hsv])]
  rw [Res.bind_ok, Res.pure_eq]
  have hl := hubIdx_length (toHub := toHub) (s := s) (List.range verts.length) false List.nodup_range
    (Or.inl (by simpa using hsv))
  simp only [Bool.false_eq_true, false_and, if_false, Nat.add_zero, List.length_range] at hl
  rw [foldl_push_res verts _ _ out [] (by simp) (by omega) (by simp [hl])]
  simp

/-- The finishing order in terms of the vertices themselves. -/
theorem hubIdx_finish {α : Type} {verts : List α} {s : Nat} {toHubI : Nat → Bool} {isHub toHub : α → Bool} {hub : α}
    (hs : verts[s]? = some hub) :
    ∀ (js : List Nat) (vs : List α) (d : Bool), (js.map fun i => verts[i]?) = vs.map some →
    (∀ i ∈ js, ∀ v, verts[i]? = some v → (isHub v = true ↔ i = s) ∧ toHubI i = toHub v) →
    ((hubIdx toHubI s d js).map fun i => verts[i]?) = (hubFinish isHub toHub hub d vs).map some
  | [], vs, d, h, _ => by
    cases vs with
    | nil => rfl
    | cons v vs => simp at h
  | i :: js, vs, d, h, hp => by
    cases vs with
    | nil => simp at h
    | cons v vs =>
      simp only [List.map_cons, List.cons.injEq] at h
      have ih := fun d => hubIdx_finish (isHub := isHub) (toHub := toHub) (toHubI := toHubI) hs js vs d h.2
        (fun i hi => hp i (by simp [hi]))
      obtain ⟨h1, h2⟩ := hp i (by simp) v h.1
      simp only [hubIdx, hubFinish]
      by_cases his : i = s
      · rw [if_pos his, if_pos (h1.2 his)]
        cases d
        · simp only [Bool.false_eq_true, if_false, List.map_cons, ih, h.1]
        · simp only [if_true, ih]
      · rw [if_neg his, if_neg (fun e => his (h1.1 e)), h2]
        by_cases hc : (toHub v && !d) = true
        · rw [if_pos hc, if_pos hc]; simp only [List.map_cons, ih, h.1, hs]
        · rw [if_neg hc, if_neg hc]; simp only [List.map_cons, ih, h.1]

theorem range_map_get {α : Type} (l : List α) : ((List.range l.length).map fun i => l[i]?) = l.map some := by
  apply List.ext_getElem?
  intro i
  rw [List.getElem?_map, List.getElem?_map]
  by_cases hi : i < l.length
  · rw [List.getElem?_range hi]; simp [List.getElem?_eq_getElem hi]
  · rw [List.getElem?_eq_none (by simpa using hi), List.getElem?_eq_none (by simpa using hi)]; rfl

/-- What `dispatcher::assign` does when no two overloads are ambiguous. -/
theorem dispAssign_edges {T F : Type} {m : T → T → Bool} {sig : F → List T} {ch : List (Option F)} {fs : List F}
    (hamb : ∀ u ∈ fs, ∀ v ∈ fs, ambiguous m (sig u) (sig v) = false) :
    ∃ es, es.length = fs.length ∧
      (∀ a b, HasE es a b ↔ ∃ u v, fs[a]? = some u ∧ fs[b]? = some v ∧ edge m (sig u) (sig v) = true) ∧
      ∀ r, topoSort fs es (resizeChildren ch fs.length) = .ok r → dispAssign m sig ch fs = (r, .ok ()) := by
  have hat : ∀ (i : Nat) u, (fs.map sig)[i]? = some u → ∃ f, fs[i]? = some f ∧ f ∈ fs ∧ sig f = u := by
    intro i u h
    rw [List.getElem?_map] at h
    cases hf : fs[i]? with
    | none => rw [hf] at h; cases h
    | some f => rw [hf] at h; exact ⟨f, rfl, List.mem_of_getElem? hf, by simpa using h⟩
  rcases buildEdges_spec m (fs.map sig) with ⟨⟨i, j, _, u, v, hu, hv, h1, h2, h3, _⟩, _⟩ | ⟨_, es, e, hl, hE⟩
  · obtain ⟨fu, _, mu, rfl⟩ := hat i u hu
    obtain ⟨fv, _, mv, rfl⟩ := hat j v hv
    have := hamb fu mu fv mv
    rw [(ambiguous_iff).2 ⟨h1, h2, h3⟩] at this; cases this
  · refine ⟨es, by simpa using hl, ?_, ?_⟩
    · intro a b
      rw [hE]
      constructor
      · rintro ⟨u, v, hu, hv, h⟩
        obtain ⟨fu, gu, mu, rfl⟩ := hat a u hu
        obtain ⟨fv, gv, mv, rfl⟩ := hat b v hv
        exact ⟨fu, fv, gu, gv, h⟩
      · rintro ⟨u, v, hu, hv, h⟩
        exact ⟨sig u, sig v, by simp [hu], by simp [hv], h⟩
    · intro r hr
      unfold dispAssign
      simp only []
      rw [e]
      simp only []
      rw [hr]

/-- Registering overloads that are not related at all reverses their order. -/
theorem flat_dispAssign {T F : Type} {m : T → T → Bool} {sig : F → List T} {ch : List (Option F)} {fs : List F}
    (h0 : fs ≠ []) (hamb : ∀ u ∈ fs, ∀ v ∈ fs, ambiguous m (sig u) (sig v) = false)
    (hedge : ∀ u ∈ fs, ∀ v ∈ fs, edge m (sig u) (sig v) = false) :
    dispAssign m sig ch fs = (fs.reverse.map some, .ok ()) := by
  obtain ⟨es, hl, hE, hr⟩ := dispAssign_edges (ch := ch) hamb
  have hlen : 0 < fs.length := List.length_pos_iff.2 h0
  have hes : ∀ (i : Nat) l, es[i]? = some l → l = [] := by
    intro i l hi
    cases l with
    | nil => rfl
    | cons j l =>
      obtain ⟨u, v, hu, hv, h⟩ := (hE i j).1 ⟨_, hi, by simp⟩
      rw [hedge u (List.mem_of_getElem? hu) v (List.mem_of_getElem? hv)] at h; cases h
  apply hr
  rw [hub_topoSort (s := 0) (toHub := fun _ => false) (resizeChildren_length _ _) hl hlen
    (by rw [List.getElem?_eq_getElem (by omega)]; exact congrArg some (hes 0 _ (List.getElem?_eq_getElem (by omega))))
    (fun i l hi => by rw [hes i l hi]; simp)]
  have hgo : ∀ (d : Bool) (js : List Nat), 0 ∉ js → hubIdx (fun _ => false) 0 d js = js := by
    intro d js
    induction js with
    | nil => intro _; cases d <;> rfl
    | cons a js ih =>
      intro hn
      simp only [List.mem_cons, not_or] at hn
      simp [hubIdx, Ne.symm hn.1, ih hn.2]
  obtain ⟨n, hn⟩ : ∃ n, fs.length = n + 1 := ⟨fs.length - 1, by omega⟩
  have : hubIdx (fun _ => false) 0 false (List.range fs.length) = List.range fs.length := by
    rw [hn, List.range_succ_eq_map]
    simp only [hubIdx, if_true, Bool.false_eq_true, if_false]
    rw [hgo true _ (by simp)]
  rw [this, List.map_reverse, range_map_get, List.map_reverse]

/-- Registering overloads whose only relations are "more specific than the one overload `hub`". -/
theorem hub_dispAssign {T F : Type} {m : T → T → Bool} {sig : F → List T} {ch : List (Option F)} {fs : List F}
    {isHub toHub : F → Bool} {hub : F}
    (hamb : ∀ u ∈ fs, ∀ v ∈ fs, ambiguous m (sig u) (sig v) = false)
    (hedge : ∀ u ∈ fs, ∀ v ∈ fs, edge m (sig u) (sig v) = (isHub v && toHub u))
    (hhub : ∃ a b, fs = a ++ hub :: b ∧ isHub hub = true ∧ toHub hub = false ∧ ∀ v ∈ a ++ b, isHub v = false) :
    dispAssign m sig ch fs = ((hubFinish isHub toHub hub false fs).reverse.map some, .ok ()) := by
  obtain ⟨es, hl, hE, hr⟩ := dispAssign_edges (ch := ch) hamb
  -- the index of the hub
  obtain ⟨s, hsl, hsv, hh, htn, huniq⟩ : ∃ s, s < fs.length ∧ fs[s]? = some hub ∧ isHub hub = true ∧
      toHub hub = false ∧ ∀ (i : Nat) v, fs[i]? = some v → (isHub v = true ↔ i = s) := by
    obtain ⟨a, b, rfl, h1, h2, h3⟩ := hhub
    refine ⟨a.length, by simp, by simp, h1, h2, ?_⟩
    intro i v hv
    rcases Nat.lt_trichotomy i a.length with hi | hi | hi
    · rw [List.getElem?_append_left hi] at hv
      have := h3 v (by simp [List.mem_of_getElem? hv])
      simp [this]; omega
    · subst hi; simp at hv; subst hv; simp [h1]
    · rw [List.getElem?_append_right (by omega)] at hv
      obtain ⟨k, hk⟩ : ∃ k, i - a.length = k + 1 := ⟨i - a.length - 1, by omega⟩
      rw [hk, List.getElem?_cons_succ] at hv
      have := h3 v (by simp [List.mem_of_getElem? hv])
      simp [this]; omega
  have hsig : ∀ a b, HasE es a b ↔ ∃ u v, fs[a]? = some u ∧ fs[b]? = some v ∧ isHub v = true ∧ toHub u = true := by
    intro a b
    rw [hE]
    constructor
    · rintro ⟨u, v, hu, hv, h⟩
      rw [hedge u (List.mem_of_getElem? hu) v (List.mem_of_getElem? hv)] at h
      simp only [Bool.and_eq_true] at h
      exact ⟨u, v, hu, hv, h.1, h.2⟩
    · rintro ⟨u, v, hu, hv, h1, h2⟩
      refine ⟨u, v, hu, hv, ?_⟩
      rw [hedge u (List.mem_of_getElem? hu) v (List.mem_of_getElem? hv)]
      simp [h1, h2]
  have hse : es[s]? = some [] := by
    rw [List.getElem?_eq_getElem (by omega)]
    cases hc : es[s] with
    | nil => rfl
    | cons j l =>
      obtain ⟨u, v, hu, _, _, h⟩ := (hsig s j).1 ⟨_, List.getElem?_eq_getElem (by omega), by rw [hc]; simp⟩
      rw [hsv, Option.some.injEq] at hu
      subst hu
      rw [htn] at h; cases h
  apply hr
  rw [hub_topoSort (s := s) (toHub := fun i => (fs[i]?.map toHub).getD false) (resizeChildren_length _ _) hl hsl hse]
  · congr 1
    rw [List.map_reverse, List.map_reverse]
    congr 1
    exact hubIdx_finish hsv _ _ _ (range_map_get fs) (fun i _ v hv => ⟨huniq i v hv, by simp [hv]⟩)
  · intro i l hi
    have hil : i < fs.length := by have := (List.getElem?_eq_some_iff.1 hi).1; omega
    constructor
    · intro j hj
      obtain ⟨u, v, _, hv, h, _⟩ := (hsig i j).1 ⟨_, hi, hj⟩
      exact (huniq j v hv).1 h
    · rw [List.getElem?_eq_getElem hil]
      simp only [Option.map_some, Option.getD_some]
      constructor
      · intro h he
        obtain ⟨l', hl', hj⟩ := (hsig i s).2 ⟨_, _, List.getElem?_eq_getElem hil, hsv, hh, h⟩
        rw [hi, Option.some.injEq] at hl'
        subst hl'; rw [he] at hj; simp at hj
      · intro hne
        cases l with
        | nil => exact absurd rfl hne
        | cons j l =>
          obtain ⟨u, v, hu, _, _, h⟩ := (hsig i j).1 ⟨_, hi, by simp⟩
          rw [List.getElem?_eq_getElem hil, Option.some.injEq] at hu
          rw [hu]; exact h

/-! ### The patterns of the table -/

/-- The patterns occurring in the signatures of the table and what they match; `fl`: the shortcut for the same
    object, which only matters for `Float` against itself. -/
def patMatch (fl : Bool) : Ty → Ty → Bool
  | .prim b, c => tyEq (.prim b) c
  | .leaf l, c => tyEq (.leaf l) c
  | .kind .any, _ => true
  | .kind .scalar, c => c.isScalar
  | .kind .string, c => matchKind .string c
  | .kind .fixedBytes, c => matchKind .fixedBytes c
  | .kind .fixedString, c => matchKind .fixedString c
  | .kind .float, c => if fl && tyEq (.kind .float) c then true else c.baseIs .float
  | .option _, .option _ => true
  | .option _, _ => false
  | .pointer _, .pointer _ => true
  | .pointer _, _ => false
  | .tuple _ _, .tuple _ _ => true
  | .tuple _ _, _ => false
  | .struct _ _ _, .struct _ _ _ => true
  | .struct _ _ _, _ => false
  | .dimKind _, .dimKind _ => true
  | .dimKind _, c => if c.ndim = 0 then false else match c.atDim 1 with | .ok _ => true | _ => false
  | _, _ => false

/-- the patterns of the table -/
inductive TablePat : Ty → Prop
  | prim (b : BTy) : TablePat (.prim b)
  | leaf (l : LeafTy) : TablePat (.leaf l)
  | any : TablePat (.kind .any)
  | scalar : TablePat (.kind .scalar)
  | string : TablePat (.kind .string)
  | fixedBytes : TablePat (.kind .fixedBytes)
  | fixedString : TablePat (.kind .fixedString)
  | float : TablePat (.kind .float)
  | option : TablePat (.option (.kind .any))
  | pointer : TablePat (.pointer (.kind .any))
  | tuple : TablePat (.tuple [] true)
  | struct : TablePat (.struct [] [] true)
  | dim : TablePat (.dimKind (.kind .any))

theorem tyMatch_any (same : List Nat → Bool) (c : Ty) (σ : Env) : ∃ τ, matchTy same (.kind .any) c σ = .ok (true, τ) := by
  unfold matchTy
  split
  · exact ⟨_, rfl⟩
  · exact ⟨_, rfl⟩

theorem tyMatch_pat (same : List Nat → Bool) {p : Ty} (hp : TablePat p) (c : Ty) :
    tyMatch same p c = patMatch (same []) p c := by
  unfold tyMatch matchFresh
  cases hp with
  | prim b => simp [matchTy, patMatch]
  | leaf l => simp [matchTy, patMatch]
  | any =>
    obtain ⟨τ, h⟩ := tyMatch_any same c Env.empty
    rw [h]; rfl
  | scalar =>
    unfold matchTy
    by_cases h : (same [] && tyEq (.kind .scalar) c) = true
    · simp only [if_pos h]
      simp only [Bool.and_eq_true] at h
      have := (tyEq_iff _ _).1 h.2
      subst this; rfl
    · simp only [if_neg h]; rfl
  | string =>
    unfold matchTy
    by_cases h : (same [] && tyEq (.kind .string) c) = true
    · simp only [if_pos h]
      simp only [Bool.and_eq_true] at h
      have := (tyEq_iff _ _).1 h.2
      subst this; rfl
    · simp only [if_neg h]; rfl
  | fixedBytes =>
    unfold matchTy
    by_cases h : (same [] && tyEq (.kind .fixedBytes) c) = true
    · simp only [if_pos h]
      simp only [Bool.and_eq_true] at h
      have := (tyEq_iff _ _).1 h.2
      subst this; rfl
    · simp only [if_neg h]; rfl
  | fixedString =>
    unfold matchTy
    by_cases h : (same [] && tyEq (.kind .fixedString) c) = true
    · simp only [if_pos h]
      simp only [Bool.and_eq_true] at h
      have := (tyEq_iff _ _).1 h.2
      subst this; rfl
    · simp only [if_neg h]; rfl
  | float =>
    unfold matchTy
    simp only [patMatch]
    by_cases h : (same [] && tyEq (.kind .float) c) = true
    · simp only [if_pos h]
    · simp only [if_neg h]; rfl
  | option =>
    unfold matchTy
    by_cases h : (same [] && tyEq (.option (.kind .any)) c) = true
    · simp only [if_pos h]
      simp only [Bool.and_eq_true] at h
      have := (tyEq_iff _ _).1 h.2
      subst this; rfl
    · simp only [if_neg h]; clear h
      cases c <;> try rfl
      rename_i t
      obtain ⟨τ, h⟩ := tyMatch_any (fun q => same (0 :: q)) t Env.empty
      simp only [h]; rfl
  | pointer =>
    unfold matchTy
    by_cases h : (same [] && tyEq (.pointer (.kind .any)) c) = true
    · simp only [if_pos h]
      simp only [Bool.and_eq_true] at h
      have := (tyEq_iff _ _).1 h.2
      subst this; rfl
    · simp only [if_neg h]; clear h
      cases c <;> try rfl
      rename_i t
      obtain ⟨τ, h⟩ := tyMatch_any (fun q => same (0 :: q)) t Env.empty
      simp only [h]; rfl
  | tuple =>
    unfold matchTy
    by_cases h : (same [] && tyEq (.tuple [] true) c) = true
    · simp only [if_pos h]
      simp only [Bool.and_eq_true] at h
      have := (tyEq_iff _ _).1 h.2
      subst this; rfl
    · simp only [if_neg h]; clear h
      cases c <;> try rfl
      simp [countsMatch, matchTys, patMatch]
  | struct =>
    unfold matchTy
    by_cases h : (same [] && tyEq (.struct [] [] true) c) = true
    · simp only [if_pos h]
      simp only [Bool.and_eq_true] at h
      have := (tyEq_iff _ _).1 h.2
      subst this; rfl
    · simp only [if_neg h]; clear h
      cases c <;> try rfl
      simp [countsMatch, matchTys, patMatch, prefixNames]
  | dim =>
    unfold matchTy
    by_cases h : (same [] && tyEq (.dimKind (.kind .any)) c) = true
    · simp only [if_pos h]
      simp only [Bool.and_eq_true] at h
      have := (tyEq_iff _ _).1 h.2
      subst this; rfl
    · simp only [if_neg h]; clear h
      have key : ∀ c : Ty, c.ndim ≠ 0 → (match ((c.atDim 1).bind fun c' =>
            (matchTy (fun q => same (0 :: q)) (.kind .any) c' Env.empty).bind fun r => .ok (r.1, Env.empty)) with
          | .ok r => r.1 | _ => false) = (match c.atDim 1 with | .ok _ => true | _ => false) := by
        intro c _
        cases hc : c.atDim 1 with
        | ok c' =>
          obtain ⟨τ, h⟩ := tyMatch_any (fun q => same (0 :: q)) c' Env.empty
          simp only [Res.bind, h]
        | throw e => rfl
        | ub => rfl
      by_cases hn : c.ndim = 0
      · rw [if_neg (by omega)]
        cases c <;> simp_all [patMatch, Ty.ndim]
      · rw [if_pos (by omega)]
        refine (key c hn).trans ?_
        cases c with
        | dimKind t => simp [Ty.atDim, patMatch]
        | _ => simp only [patMatch]; rw [if_neg hn]

/-- the overload for a value or missing value: the one every scalar conversion is more specific than -/
def AEntry.isValOpt : AEntry → Bool
  | .valOpt => true
  | _ => false

/-- is the source pattern a scalar one (so that the overload is more specific than `Any <- Scalar`)? -/
def AEntry.scalarSrc : AEntry → Bool
  | .elwDD | .elwSD | .valOpt | .optOpt | .optToVal | .ptrPtr => false
  | _ => true

/-- not added by the user -/
def AEntry.builtin : AEntry → Bool
  | .user _ _ => false
  | _ => true

theorem sig_pats {e : AEntry} (h : e.builtin = true) : ∃ p q, e.sig = [p, q] ∧ TablePat p ∧ TablePat q := by
  cases e <;> first | exact ⟨_, _, rfl, by constructor, by constructor⟩ | cases h

theorem supercedes_pats (same : List Nat → Bool) {u v : AEntry} (hv : v.builtin = true) :
    ∀ a b, u.sig = [a, b] → supercedes (tyMatch same) u.sig v.sig = supercedes (patMatch (same [])) u.sig v.sig := by
  intro a b hu
  obtain ⟨p, q, h, hp, hq⟩ := sig_pats hv
  rw [hu, h]
  simp only [supercedes, tyMatch_pat same hp, tyMatch_pat same hq]

theorem consistent_pats (same : List Nat → Bool) {u v : AEntry} (hu : u.builtin = true) (hv : v.builtin = true) :
    consistent (tyMatch same) u.sig v.sig = consistent (patMatch (same [])) u.sig v.sig := by
  obtain ⟨p, q, h, hp, hq⟩ := sig_pats hv
  obtain ⟨p', q', h', hp', hq'⟩ := sig_pats hu
  rw [h, h']
  simp only [consistent, tyMatch_pat same hp, tyMatch_pat same hq, tyMatch_pat same hp', tyMatch_pat same hq']

/-- the patterns of the table, named -/
inductive PC where
  | prim (b : BTy) | str | byt | fbK | fsK | chr | typ | strK | scal | opt | any | fltK | ptr | tup | stru | dim

/-- the pattern of that name -/
def PC.ty : PC → Ty
  | .prim b => .prim b
  | .str => .leaf .string
  | .byt => .leaf (.bytes 1)
  | .fbK => .kind .fixedBytes
  | .fsK => .kind .fixedString
  | .chr => .leaf (.char 4)
  | .typ => .leaf .typeT
  | .strK => .kind .string
  | .scal => .kind .scalar
  | .opt => .option (.kind .any)
  | .any => .kind .any
  | .fltK => .kind .float
  | .ptr => .pointer (.kind .any)
  | .tup => .tuple [] true
  | .stru => .struct [] [] true
  | .dim => .dimKind (.kind .any)

/-- Is the second pattern an instance of the first one? -/
def pcMatch (fl : Bool) : PC → PC → Bool
  | .prim b, .prim c => decide (b = c)
  | .str, .str | .byt, .byt | .fbK, .fbK | .fsK, .fsK | .chr, .chr | .typ, .typ | .opt, .opt | .ptr, .ptr
  | .tup, .tup | .stru, .stru | .dim, .dim => true
  | .fltK, .fltK => fl
  | .fltK, .prim (.flt _) => true
  | .strK, .str | .strK, .fsK | .strK, .strK => true
  | .any, _ => true
  | .scal, .opt | .scal, .any | .scal, .dim | .scal, .ptr => false
  | .scal, _ => true
  | _, _ => false

theorem patMatch_pc (fl : Bool) (p q : PC) : patMatch fl p.ty q.ty = pcMatch fl p q := by
  cases p
  case prim b => cases q <;> first | rfl | simp [PC.ty, patMatch, pcMatch, tyEq]
  case fltK =>
    cases q
    case prim b => cases b <;> cases fl <;> rfl
    all_goals cases fl <;> rfl
  case dim => cases q <;> first | rfl | simp [PC.ty, patMatch, pcMatch, Ty.ndim]
  all_goals cases q <;> first | rfl | simp [PC.ty, patMatch, pcMatch, tyEq]

/-- the names of the two patterns of an overload -/
def AEntry.pcs : AEntry → PC × PC
  | .num d s => (.prim d, .prim s)
  | .strStr => (.str, .str)
  | .bytesBytes => (.byt, .byt)
  | .fbFb => (.fbK, .fbK)
  | .fsFs => (.fsK, .fsK)
  | .charStr => (.chr, .str)
  | .strChar => (.str, .chr)
  | .typeType => (.typ, .typ)
  | .fsInt32 => (.fsK, .prim (.int .w32))
  | .fsStr => (.fsK, .str)
  | .intStr w => (.prim (.int w), .strK)
  | .strFs => (.str, .fsK)
  | .boolStr => (.prim .bool, .str)
  | .optToVal => (.scal, .opt)
  | .optOpt => (.opt, .opt)
  | .valOpt => (.any, .scal)
  | .optStr => (.opt, .str)
  | .optFloat => (.opt, .fltK)
  | .strType => (.str, .typ)
  | .typeStr => (.typ, .str)
  | .ptrPtr => (.ptr, .ptr)
  | .f32Str => (.prim (.flt .f32), .str)
  | .f64Str => (.prim (.flt .f64), .str)
  | .tupTup => (.tup, .tup)
  | .structStruct => (.stru, .stru)
  | .elwSD => (.scal, .dim)
  | .elwDS => (.dim, .scal)
  | .elwDD => (.dim, .dim)
  | .user _ _ => (.any, .any)

theorem sig_pcs {e : AEntry} (h : e.builtin = true) : e.sig = [e.pcs.1.ty, e.pcs.2.ty] := by
  cases e <;> first | rfl | exact Bool.noConfusion h

/-- Two overloads of the table, neither of them `Any <- Scalar`: either they have the same signature or no pair of
    types is meant by both. -/
theorem entries_disjoint {fl : Bool} {u v : AEntry} (hu : u.builtin = true) (hv : v.builtin = true)
    (nu : u.isValOpt = false) (nv : v.isValOpt = false)
    (h1 : (pcMatch fl u.pcs.1 v.pcs.1 || pcMatch fl v.pcs.1 u.pcs.1) = true)
    (h2 : (pcMatch fl u.pcs.2 v.pcs.2 || pcMatch fl v.pcs.2 u.pcs.2) = true) :
    u.pcs = v.pcs := by
  cases u
  case num d s =>
    cases v <;> first | exact Bool.noConfusion h1 | exact Bool.noConfusion h2 |
      simp_all [AEntry.pcs, pcMatch, AEntry.builtin, AEntry.isValOpt]
    constructor
    · rcases h1 with h | h <;> simp [h]
    · rcases h2 with h | h <;> simp [h]
  case intStr w =>
    cases v <;> first | exact Bool.noConfusion h1 | exact Bool.noConfusion h2 |
      simp_all [AEntry.pcs, pcMatch, AEntry.builtin, AEntry.isValOpt]
    rcases h1 with h | h <;> simp [h]
  case user => exact Bool.noConfusion hu
  case valOpt => exact Bool.noConfusion nu
  all_goals cases v <;> first | rfl | exact Bool.noConfusion h1 | exact Bool.noConfusion h2 |
      exact Bool.noConfusion nv | exact Bool.noConfusion hv | simp [AEntry.pcs, pcMatch] at h1 h2

theorem sup_pcs (same : List Nat → Bool) {u v : AEntry} (hu : u.builtin = true) (hv : v.builtin = true) :
    supercedes (tyMatch same) u.sig v.sig =
      (pcMatch (same []) v.pcs.1 u.pcs.1 && pcMatch (same []) v.pcs.2 u.pcs.2) := by
  obtain ⟨p, q, h, hp, hq⟩ := sig_pats hv
  rw [sig_pcs hv] at h
  simp only [List.cons.injEq, and_true] at h
  rw [sig_pcs hu, sig_pcs hv]
  simp only [supercedes, h.1, h.2, tyMatch_pat same hp, tyMatch_pat same hq, Bool.and_true]
  rw [← h.1, ← h.2, patMatch_pc, patMatch_pc]

theorem con_pcs (same : List Nat → Bool) {u v : AEntry} (hu : u.builtin = true) (hv : v.builtin = true) :
    consistent (tyMatch same) u.sig v.sig =
      ((pcMatch (same []) u.pcs.1 v.pcs.1 || pcMatch (same []) v.pcs.1 u.pcs.1) &&
        (pcMatch (same []) u.pcs.2 v.pcs.2 || pcMatch (same []) v.pcs.2 u.pcs.2)) := by
  obtain ⟨p, q, h, hp, hq⟩ := sig_pats hv
  obtain ⟨p', q', h', hp', hq'⟩ := sig_pats hu
  rw [sig_pcs hv] at h
  rw [sig_pcs hu] at h'
  simp only [List.cons.injEq, and_true] at h h'
  rw [sig_pcs hu, sig_pcs hv]
  simp only [consistent, h.1, h.2, h'.1, h'.2, tyMatch_pat same hp, tyMatch_pat same hq, tyMatch_pat same hp',
    tyMatch_pat same hq', Bool.and_true]
  rw [← h.1, ← h.2, ← h'.1, ← h'.2, patMatch_pc, patMatch_pc, patMatch_pc, patMatch_pc]

theorem valOpt_under {fl : Bool} {v : AEntry} (hv : v.builtin = true) (nv : v.isValOpt = false) :
    (pcMatch fl v.pcs.1 .any && pcMatch fl v.pcs.2 .scal) = false := by
  cases v <;> first | rfl | exact Bool.noConfusion hv | exact Bool.noConfusion nv

theorem scal_over {fl : Bool} {u : AEntry} (hu : u.builtin = true) (nu : u.isValOpt = false) :
    pcMatch fl .scal u.pcs.2 = u.scalarSrc := by
  cases u <;> first | rfl | exact Bool.noConfusion hu | exact Bool.noConfusion nu

theorem scal_either {fl : Bool} {u : AEntry} (hu : u.builtin = true)
    (h : (pcMatch fl u.pcs.2 .scal || pcMatch fl .scal u.pcs.2) = true) : pcMatch fl .scal u.pcs.2 = true := by
  cases u <;> first | rfl | exact Bool.noConfusion hu | exact Bool.noConfusion h

theorem entries_edge (same : List Nat → Bool) {u v : AEntry} (hu : u.builtin = true) (hv : v.builtin = true) :
    edge (tyMatch same) u.sig v.sig = (v.isValOpt && u.scalarSrc) := by
  unfold edge
  rw [sup_pcs same hu hv, sup_pcs same hv hu]
  by_cases nv : v.isValOpt = true
  · have hv' : v = .valOpt := by cases v <;> first | rfl | exact Bool.noConfusion nv
    subst hv'
    by_cases nu : u.isValOpt = true
    · have hu' : u = .valOpt := by cases u <;> first | rfl | exact Bool.noConfusion nu
      subst hu'; rfl
    · rw [Bool.not_eq_true] at nu
      have h1 := valOpt_under (fl := same []) hu nu
      have h2 := scal_over (fl := same []) hu nu
      have e1 : AEntry.valOpt.pcs.1 = .any := rfl
      have e2 : AEntry.valOpt.pcs.2 = .scal := rfl
      rw [e1, e2, h1, h2]
      cases u.scalarSrc <;> rfl
  · rw [Bool.not_eq_true] at nv
    rw [nv, Bool.false_and]
    by_cases nu : u.isValOpt = true
    · have hu' : u = .valOpt := by cases u <;> first | rfl | exact Bool.noConfusion nu
      subst hu'
      have e1 : AEntry.valOpt.pcs.1 = .any := rfl
      have e2 : AEntry.valOpt.pcs.2 = .scal := rfl
      rw [e1, e2, valOpt_under hv nv]; rfl
    · rw [Bool.not_eq_true] at nu
      by_cases hc : (pcMatch (same []) v.pcs.1 u.pcs.1 && pcMatch (same []) v.pcs.2 u.pcs.2) = true
      · have hc' := hc
        simp only [Bool.and_eq_true] at hc'
        have := entries_disjoint hu hv nu nv (by rw [hc'.1]; simp) (by rw [hc'.2]; simp)
        rw [this] at hc ⊢
        simp only [hc, if_true]
      · rw [if_neg hc]

theorem entries_unambiguous (same : List Nat → Bool) {u v : AEntry} (hu : u.builtin = true) (hv : v.builtin = true) :
    ambiguous (tyMatch same) u.sig v.sig = false := by
  unfold ambiguous
  rw [con_pcs same hu hv, sup_pcs same hu hv, sup_pcs same hv hu]
  by_cases hc : ((pcMatch (same []) u.pcs.1 v.pcs.1 || pcMatch (same []) v.pcs.1 u.pcs.1) &&
        (pcMatch (same []) u.pcs.2 v.pcs.2 || pcMatch (same []) v.pcs.2 u.pcs.2)) = true
  · rw [hc, Bool.true_and]
    simp only [Bool.and_eq_true] at hc
    by_cases nv : v.isValOpt = true
    · have hv' : v = .valOpt := by cases v <;> first | rfl | exact Bool.noConfusion nv
      subst hv'
      have e1 : AEntry.valOpt.pcs.1 = .any := rfl
      have e2 : AEntry.valOpt.pcs.2 = .scal := rfl
      rw [e1, e2] at hc ⊢
      rw [scal_either hu hc.2]; rfl
    · by_cases nu : u.isValOpt = true
      · have hu' : u = .valOpt := by cases u <;> first | rfl | exact Bool.noConfusion nu
        subst hu'
        have e1 : AEntry.valOpt.pcs.1 = .any := rfl
        have e2 : AEntry.valOpt.pcs.2 = .scal := rfl
        rw [e1, e2] at hc ⊢
        rw [scal_either hv (by rw [Bool.or_comm]; exact hc.2)]
        simp [pcMatch]
      · rw [Bool.not_eq_true] at nv nu
        have := entries_disjoint hu hv nu nv hc.1 hc.2
        rw [this] at hc ⊢
        simp only [Bool.or_self] at hc ⊢
        rw [hc.1, hc.2]; rfl
  · rw [Bool.not_eq_true] at hc
    rw [hc]; rfl

/-- The order after inserting `fs` into a dispatcher with the children `l`. -/
def insertOrder (l fs : List AEntry) : List AEntry :=
  if (l ++ fs).any AEntry.isValOpt then
    (hubFinish AEntry.isValOpt AEntry.scalarSrc .valOpt false (l ++ fs)).reverse
  else (l ++ fs).reverse

theorem filterMap_some {α : Type} (l : List α) : (l.map some).filterMap id = l := by
  induction l with
  | nil => rfl
  | cons a l ih => simpa using ih

/-- One `insert` call, in a table with at most one overload `Any <- Scalar`. -/
theorem insertAll_ok (same : List Nat → Bool) (l fs : List AEntry) (h0 : l ++ fs ≠ [])
    (hb : ∀ e ∈ l ++ fs, e.builtin = true)
    (hone : ((l ++ fs).filter AEntry.isValOpt).length ≤ 1) :
    insertAll same (l.map some) fs = .ok ((insertOrder l fs).map some) := by
  unfold insertAll insertOrder
  rw [if_pos (by simp), filterMap_some]
  by_cases hv : (l ++ fs).any AEntry.isValOpt = true
  · rw [if_pos hv]
    have hh : ∃ a b, l ++ fs = a ++ AEntry.valOpt :: b ∧ AEntry.valOpt.isValOpt = true ∧
        AEntry.valOpt.scalarSrc = false ∧ ∀ v ∈ a ++ b, v.isValOpt = false := by
      simp only [List.any_eq_true] at hv
      obtain ⟨x, hx, hx'⟩ := hv
      have : x = .valOpt := by cases x <;> first | rfl | exact Bool.noConfusion hx'
      subst this
      obtain ⟨a, b, e⟩ := List.append_of_mem hx
      refine ⟨a, b, e, rfl, rfl, ?_⟩
      rw [e] at hone
      simp only [List.filter_append, List.filter_cons, AEntry.isValOpt, if_true, List.length_append,
        List.length_cons] at hone
      intro v hm
      rw [List.mem_append] at hm
      cases hvv : v.isValOpt with
      | false => rfl
      | true =>
        exfalso
        have hA : (List.filter AEntry.isValOpt a).length = 0 := by omega
        have hB : (List.filter AEntry.isValOpt b).length = 0 := by omega
        rw [List.length_eq_zero_iff, List.filter_eq_nil_iff] at hA hB
        rcases hm with hm | hm
        · exact hA v hm hvv
        · exact hB v hm hvv
    rw [hub_dispAssign (isHub := AEntry.isValOpt) (toHub := AEntry.scalarSrc) (hub := .valOpt)
      (fun u hu v hv => entries_unambiguous same (hb u hu) (hb v hv))
      (fun u hu v hv => entries_edge same (hb u hu) (hb v hv)) hh]
  · rw [if_neg hv]
    rw [flat_dispAssign h0 (fun u hu v hv => entries_unambiguous same (hb u hu) (hb v hv))]
    intro u hu v hv'
    rw [entries_edge same (hb u hu) (hb v hv')]
    have : v.isValOpt = false := by
      cases h : v.isValOpt with
      | false => rfl
      | true => exact absurd (List.any_eq_true.2 ⟨v, hv', h⟩) hv
    rw [this]; rfl

/-- The checks needed for a sequence of `insert` calls. -/
def insertsOk : List (List AEntry) → List AEntry → Bool
  | [], _ => true
  | fs :: rest, l => !(l ++ fs).isEmpty && (l ++ fs).all AEntry.builtin &&
      decide (((l ++ fs).filter AEntry.isValOpt).length ≤ 1) && insertsOk rest (insertOrder l fs)

theorem insertSeq_ok (same : List Nat → Bool) : ∀ (ins : List (List AEntry)) (l : List AEntry), insertsOk ins l = true →
    insertSeq same ins (l.map some) = .ok ((ins.foldl insertOrder l).map some)
  | [], _, _ => rfl
  | fs :: rest, l, h => by
    simp only [insertsOk, Bool.and_eq_true, decide_eq_true_eq, List.all_eq_true, Bool.not_eq_true',
      List.isEmpty_eq_false_iff] at h
    simp only [insertSeq]
    rw [insertAll_ok same l fs h.1.1.1 h.1.1.2 h.1.2, Res.bind_ok]
    exact insertSeq_ok same rest _ h.2

/-- The overloads of `nd::assign` in the order they are tried. -/
def assignTable : List AEntry :=
  [.elwDD, .elwDS, .elwSD, .tupTup, .f32Str, .intStr .w32, .intStr .w8, .typeStr, .optFloat, .optOpt, .optToVal,
   .strFs, .intStr .w32, .fsFs, .typeType, .fsFs, .fsFs, .fbFb, .strStr] ++ numericPairs ++
  [.bytesBytes, .fsFs, .charStr, .strChar, .fsInt32, .fsStr, .strStr, .boolStr, .optStr, .strType, .ptrPtr,
   .intStr .w16, .intStr .w64, .f64Str, .structStruct, .valOpt]

theorem inserts_checks : insertsOk ([] :: assignInserts) numericPairs = true := by decide +kernel

set_option maxRecDepth 100000 in
theorem table_order : assignInserts.foldl insertOrder (insertOrder numericPairs []) = assignTable := by rfl

/-- The table is built without an error and its order does not depend on which type objects are shared. -/
theorem assign_table (same : List Nat → Bool) : makeAssign same = .ok (assignTable.map some) := by
  unfold makeAssign
  have hc := inserts_checks
  rw [insertsOk] at hc
  have h0 : insertAll same ([].map some) numericPairs = .ok ((insertOrder [] numericPairs).map some) := by
    simp only [Bool.and_eq_true, decide_eq_true_eq, List.all_eq_true, Bool.not_eq_true', List.append_nil,
      List.isEmpty_eq_false_iff] at hc
    exact insertAll_ok same [] numericPairs (by simpa using hc.1.1.1) (by simpa using hc.1.1.2) (by simpa using hc.1.2)
  rw [show ([] : List (Option AEntry)) = [].map some from rfl, h0, Res.bind_ok]
  have e : insertOrder [] numericPairs = insertOrder numericPairs [] := by
    unfold insertOrder; simp
  rw [e, insertSeq_ok same _ _ (by simp only [Bool.and_eq_true] at hc; exact hc.2), table_order]

end Dynd
