/-
C122: calls of `nd::take`.
-/
import Verif.Props.TakeLoop
import Verif.Props.CopyCall

namespace Dynd

theorem dims_none {t : Ty} (h : ¬ IsDim t) : dimsOf t = [] := by
  cases t with
  | fixedDim n el => exact absurd trivial h
  | varDim el => exact absurd trivial h
  | _ => rfl

/-- the assignment of elements, below something else -/
theorem assign_below (same : List Nat → Bool) (om : Option AMode) {ed es : Ty} (cd : Concrete ed) (cs : Concrete es)
    (nd : ¬ IsDim ed) (ns : ¬ IsDim es) (hf : ¬ HasFields es) (hw : Works false true ed es)
    {a b : List (Option Nat)} (h : CopyFits a b) :
    ∃ F K nds, Right (callMode om) K ed es ∧ ∀ fuel, F ≤ fuel →
      resolveA same (assignTable.map some) (some om) fuel false (arrTy a ed) (arrTy b es) = .ok nds ∧
      ∀ {α β : Type} (op : α → Res β) (src : USrc α) {sm dm : List UMeta} (_ : MetaFits b sm) (_ : MetaFits a dm) {sz : Nat}
        (_ : 0 < sz), ∃ ls, instCp fuel nds dm (some sm) = .ok (ls, K) ∧
          Copies op sz b.length dm (viewArr src.cells src.recs sm) (runCp op src ls) := by
  obtain ⟨nds, hres, hcp⟩ := copy_joint h
  obtain ⟨F, lf, K, hr, he, _, hi⟩ := works_builds same (some om) (callMode om) (by intro b; cases om <;> rfl) hw cd cs
  obtain ⟨rest, _, hg⟩ := hi []
  refine ⟨F + 1, K, nds ++ lf, hr, ?_⟩
  intro fuel hfu
  obtain ⟨g, rfl⟩ : ∃ g, fuel = g + 1 := ⟨fuel - 1, by omega⟩
  have hk := hg (g + 1) (by omega)
  rw [List.append_nil] at hk
  have z0 : ed.ndim = 0 := not_dim_ndim cd nd
  have z1 : es.ndim = 0 := not_dim_ndim cs ns
  constructor
  · cases a with
    | nil =>
      cases b with
      | cons q b => cases h
      | nil =>
        have h1 := hres (fun _ _ => .ok lf) ed es lf z0 z1 ns rfl
        have h2 : (Res.ok lf : Res (List ANode)) = .ok (nds ++ lf) := h1
        rw [← h2]
        exact he (g + 1) (by omega)
    | cons p a =>
      have hlen : b.length ≤ (p :: a).length := by
        cases h with
        | both _ _ h => simp [h]
        | rep _ h => simp; omega
      have hE : resolveElw (resolveA same (assignTable.map some) (some om) g false) (arrTy (p :: a) ed) (arrTy b es) =
          .ok (nds ++ lf) := by
        simp only [resolveElw]
        rw [arr_ndim z0, arr_ndim z1, if_neg (by omega)]
        exact hres _ ed es lf z0 z1 ns (he g (by omega))
      unfold resolveA
      by_cases hs : IsDim (arrTy b es)
      · rw [assign_choice same (e := .elwDD) (tbl_mem (by simp)) (concrete_arrTy cd _) (concrete_arrTy cs _) ⟨isDim_arr, hs⟩
          (by simp) (by simp), Res.bind_ok]
        exact hE
      · rw [assign_choice same (e := .elwDS) (tbl_mem (by simp)) (concrete_arrTy cd _) (concrete_arrTy cs _) ⟨isDim_arr, hs⟩
          (by simp) (by simp), Res.bind_ok]
        exact hE
  · intro α β op src sm dm f0 f1 sz hsz
    exact hcp op src sz hsz (g + 1) lf K (instCp_leaf hk (right_flat hr cd nd ns hf)) sm (some sm) dm f0 (.inl rfl) f1

/-! ### The selected elements -/

theorem selected_map {A B : Type} (f : A → B) : ∀ (l : List A) (bs : List UInt8), (selected l bs).map f = selected (l.map f) bs
  | [], bs => by simp [selected]
  | _ :: _, [] => by simp [selected]
  | x :: l, b :: bs => by
    have := selected_map f l bs
    unfold selected at this ⊢
    simp only [List.map_cons, List.zip_cons_cons, List.filter_cons]
    by_cases h : b != 0
    · rw [if_pos h, if_pos h]; simp only [List.map_cons]; rw [this]
    · rw [if_neg h, if_neg h]; exact this

theorem addrs_view {γ : Type} {view : Int → Option γ} {st : Int} : ∀ (n : Nat) (a : Int) (xs : List γ), viewList view st n a = some xs →
    (addrs st n a).map view = xs.map some
  | 0, a, xs, h => by
    simp only [viewList, Option.some.injEq] at h
    subst h; rfl
  | n + 1, a, xs, h => by
    simp only [viewList, Option.bind_eq_some_iff, Option.map_eq_some_iff] at h
    obtain ⟨x, hx, ys, hy, rfl⟩ := h
    simp only [addrs, List.map_cons, hx, addrs_view n _ ys hy]

theorem view_list {γ : Type} {view : Int → Option γ} {at_ : Int → Int} : ∀ (l : List Int) (xs : List γ) (k : Int), l.map view = xs.map some →
    (∀ (j : Nat) x, l[j]? = some x → at_ (k + j) = x) → viewList (fun i => view (at_ i)) 1 l.length k = some xs
  | [], [], _, _, _ => rfl
  | [], _ :: _, _, h, _ => by simp at h
  | _ :: _, [], _, h, _ => by simp at h
  | a :: l, x :: xs, k, h, hj => by
    simp only [List.map_cons, List.cons.injEq] at h
    have h0 : at_ k = a := by have := hj 0 a rfl; simpa using this
    have ih := view_list (view := view) (at_ := at_) l xs (k + 1) h.2 (fun j y hy => by
      have := hj (j + 1) y (by simpa using hy)
      rw [← this]
      congr 1
      omega)
    simp only [List.length_cons, viewList, h0, h.1, ih, Option.bind_some, Option.map_some]

theorem mapAll_eq {α β : Type} (g : α → β) : ∀ xs : List (NestVal α), mapAll g xs = xs.map (NestVal.map g)
  | [] => rfl
  | x :: xs => by simp only [mapAll, List.map_cons, mapAll_eq g xs]

theorem assignFront_map : ∀ ns : List ANode, assignFront (ns.map .assign) = ns
  | [] => rfl
  | n :: ns => by simp only [List.map_cons, assignFront, assignFront_map ns]

theorem assignFront_append : ∀ (ns : List ANode) (x : List TNode), (∀ n r, x ≠ .assign n :: r) → assignFront (ns.map .assign ++ x) = ns
  | [], x, h => by
    cases x with
    | nil => rfl
    | cons t r =>
      cases t with
      | assign n => exact absurd rfl (h n r)
      | _ => rfl
  | n :: ns, x, h => by simp only [List.map_cons, List.cons_append, assignFront, assignFront_append ns x h]

/-- elements that can be seen are filled in with a conversion that reports no error -/
theorem along_fill {α β : Type} {op : α → Res β} {g : α → β} {recs : Int → Option (Int × Nat)} {dm : List UMeta} {k : Nat} {st : Int} :
    ∀ (n : Nat) (a : Int) (us : List (NestVal α)), us.length = n →
    (∀ u ∈ us, alongAll (fun b => fillWith op recs dm k b u = .ok (u.map g)) st n a) →
    alongRes (fillWith op recs dm k) st a us = .ok (us.map (NestVal.map g))
  | 0, a, [], _, _ => rfl
  | n + 1, a, u :: us, hl, h => by
    simp only [alongRes]
    rw [(h u List.mem_cons_self).1, Res.bind_ok, along_fill n (a + st) us (by simpa using hl)
      (fun v hv => (h v (List.mem_cons_of_mem _ hv)).2), Res.bind_ok]
    rfl

theorem selected_mem {A : Type} {l : List A} {bs : List UInt8} {x : A} (h : x ∈ selected l bs) : x ∈ l := by
  unfold selected at h
  rw [List.mem_map] at h
  obtain ⟨p, hp, rfl⟩ := h
  have := (List.mem_filter.1 hp).1
  exact (List.of_mem_zip (a := p.1) (b := p.2) this).1

theorem view_mem {γ : Type} {view : Int → Option γ} {st : Int} {n : Nat} {a : Int} {xs : List γ} (h : viewList view st n a = some xs)
    {x : γ} (hx : x ∈ xs) : ∃ s, view s = some x := by
  have h1 := addrs_view n a xs h
  have : some x ∈ xs.map some := List.mem_map_of_mem hx
  rw [← h1, List.mem_map] at this
  obtain ⟨s, _, hs⟩ := this
  exact ⟨s, hs⟩

/-- C122, mask: `take` of an array of any nesting of dimensions (`CopyFits b b`: no size-1 dimension before a longer one) gives a
    `var` array of exactly the elements whose mask is set, in order; masks of another size are refused. -/
theorem masked_take_call_partial (same : List Nat → Bool) {es : Ty} (cs : Concrete es) (ns : ¬ IsDim es) (hf : ¬ HasFields es)
    (hw : Works false true es es) {b : List (Option Nat)} (h : CopyFits b b) :
    ∃ tbl, makeAssign same = .ok tbl ∧ ∃ F K, Right .default K es es ∧
      ∀ {α β : Type} (op : KTree → α → Res β) (g : α → β) (_ : ∀ x, op K x = .ok (g x)) (src : USrc α) {n : Nat} {sm : List UMeta}
        (_ : MetaFits (some n :: b) sm) {s : Int} {us : List (NestVal α)} (_ : viewArr src.cells src.recs sm s = some (.list us))
        (mask : Int → Option UInt8) {n' : Nat} {mst a : Int} {bs : List UInt8} (_ : viewList mask mst n' a = some bs)
        {sz : Nat} (_ : 0 < sz) (base : Int) (fuel : Nat) (_ : F ≤ fuel),
      if n = n' then ∃ m, takeRun fuel (resolveTake same tbl fuel (arrTy (some n :: b) es) (arrTy [some n'] (.prim .bool))) op sz
          src sm s mask [.fixed n' mst] a base = .ok (arrTy (none :: b) es, freshMeta sz (none :: b), m) ∧
        viewArr m.cells m.recs (freshMeta sz (none :: b)) base = some (.list ((selected us bs).map (NestVal.map g)))
      else takeRun fuel (resolveTake same tbl fuel (arrTy (some n :: b) es) (arrTy [some n'] (.prim .bool))) op sz
          src sm s mask [.fixed n' mst] a base = .throw .invalidArg := by
  refine ⟨_, assign_table same, ?_⟩
  obtain ⟨F, K, nds, hr, hall⟩ := assign_below same (some .default) cs cs ns ns hf hw h
  refine ⟨F, K, hr, ?_⟩
  intro α β op g hg src n sm fs s us hus mask n' mst a bs hbs sz hsz base fuel hfu
  obtain ⟨hres, hcp⟩ := hall fuel hfu
  cases fs with
  | fixed _ sst fr =>
  rename_i sr
  simp only [viewArr, Option.map_eq_some_iff] at hus
  obtain ⟨us', hus, e⟩ := hus
  cases e
  have hR : resolveTake same (assignTable.map some) fuel (arrTy (some n :: b) es) (arrTy [some n'] (.prim .bool)) =
      .ok (.masked :: nds.map .assign, arrTy (none :: b) es) := by
    have e : (arrTy [some n'] (.prim .bool)).atDim 1 = .ok (.prim .bool) := by simp only [arrTy, Ty.atDim]
    unfold resolveTake
    rw [e, Res.bind_ok]
    simp only [resolveMasked, arrTy, dimSizeOf]
    rw [hres, Res.bind_ok]
    rfl
  have hdm : dimsOf (arrTy (none :: b) es) = none :: b := arr_dims (dims_none ns) _
  simp only [takeRun, hR, Res.bind_ok, takeMeta, hdm, assignFront_map, freshMeta, dataSize, maskedRun]
  by_cases hn : n = n'
  case neg =>
    rw [if_neg hn, if_pos hn, Res.bind_throw]
  subst hn
  rw [if_pos rfl, if_neg (by simp)]
  obtain ⟨ls, hls, hcop⟩ := hcp (op K) src fr (fresh_fits sz b) hsz
  rw [hls, Res.bind_ok]
  simp only []
  generalize hm : (⟨fun _ => none, putAt (fun _ => none) base (base + (16 : Nat), n), base + (16 : Nat) + n * (dataSize sz b : Int)⟩ : UDst β) = m0
  have n0 : m0.next = base + 16 + (n * dataSize sz b : Nat) := by rw [← hm]; show _ + _ * _ = _; rw [Int.natCast_mul]; rfl
  have r0 : ∀ x, x ≠ base → m0.recs x = none := by intro x hx; rw [← hm]; exact if_neg hx
  rw [takeLoop_ok _ (n + 1) n 0 s a _ 0 m0 bs hbs (by omega) (by omega)]
  generalize hL : selected (addrs sst n s) bs = L
  have hLl : L.length ≤ n := by rw [← hL]; exact Nat.le_trans (selected_length_le _ _) (by rw [addrs_length])
  have hLv : L.map (viewArr src.cells src.recs sr) = (selected us bs).map some := by
    rw [← hL, selected_map, selected_map, addrs_view n s us hus]
  have hat : ∀ (j : Nat) x, L[j]? = some x → (fun i : Int => L.getD i.toNat 0) (0 + j) = x := by
    intro j x hj
    simp [List.getD_eq_getElem?_getD, hj]
  rw [list_uLoop (dataSize sz b) (fun i => L.getD i.toNat 0) L 0 _ m0 hat]
  have hC : Copies (op K) sz b.length (freshMeta sz b) (fun i => viewArr src.cells src.recs sr (L.getD i.toNat 0))
      (fun d i m => runCp (op K) src ls d (L.getD i.toNat 0) m) := fun d i m u hu hrd => hcop d _ m u hu hrd
  have hle : L.length * dataSize sz b ≤ n * dataSize sz b := Nat.mul_le_mul_right _ hLl
  have hfree : ∀ x, base + 16 ≤ x → m0.recs x = none := fun x hx => r0 x (by omega)
  obtain ⟨⟨p1, p2⟩, ⟨q1, q2⟩, hnew⟩ := fresh_places (recs := m0.recs) hsz (some L.length :: b) (base + 16) (fun x h _ => hfree x h)
  simp only [freshMeta, dataSize] at p1 p2 q1 q2 hnew
  have hrd : Ready sz (.fixed L.length (dataSize sz b) :: freshMeta sz b) (base + (16 : Nat)) m0 := by
    refine ⟨p1, q1, ?_, ?_, fun x hx => hfree x (by omega), hnew⟩
    · intro x hx; have := p2 x hx; omega
    · intro x hx; have := q2 x hx; omega
  have hgive := copyLoop hC L.length (dataSize sz b) 1 (base + (16 : Nat)) 0 m0 _ (view_list L _ 0 hLv hat) hrd
  have hlen : (selected us bs).length = L.length := by
    have := congrArg List.length hLv
    simpa using this.symm
  have hfill : alongRes (fillWith (op K) m0.recs (freshMeta sz b) b.length) (dataSize sz b : Int) (base + (16 : Nat)) (selected us bs) =
      .ok ((selected us bs).map (NestVal.map g)) := by
    refine along_fill L.length _ _ hlen fun u hu => ?_
    obtain ⟨t, ht⟩ := view_mem hus (selected_mem hu)
    refine along_region_all L.length _ fun c h1 h2 => ?_
    rw [fresh_fill (op K) b m0.recs c (fun y h3 _ => hfree y (by omega)) b.length u]
    exact fill_same hg b fr t 0 u ht
  rw [hfill] at hgive
  obtain ⟨m', e', hst⟩ := hgive
  rw [e']
  simp only [Res.bind]
  refine ⟨_, rfl, ?_⟩
  have hv := hst.value m'.cells (putAt m'.recs base (base + (16 : Nat), L.length)) (fun _ _ => rfl) (fun x hx => by
    refine if_neg ?_
    rintro rfl
    rcases hx with hx | hx
    · have := q2 _ hx; omega
    · omega)
  simp only [viewArr, Option.map_eq_some_iff, NestVal.list.injEq] at hv
  obtain ⟨ys, hv, rfl⟩ := hv
  simp only [viewArr, Nat.zero_add]
  have hb : putAt m'.recs base (base + (16 : Nat), L.length) base = some (base + (16 : Nat), L.length) := if_pos rfl
  rw [hb]
  simp only [Option.bind_some, Int.add_zero]
  rw [hv]
  rfl

end Dynd
