/-
C121: the theorems about calls of `nd::assign` on arrays with a given destination.
-/
import Verif.Props.CopyJoint

namespace Dynd

def KTree.root : KTree → ANode
  | .mk n _ => n

/-- nodes whose kernels read the array metadata of source and destination -/
def ANode.usesMeta : ANode → Bool
  | .elw _ _ _ | .record _ => true
  | _ => false

theorem right_flat {m : AMode} {K : KTree} {d s : Ty} (h : Right m K d s) : Concrete d → ¬ IsDim d → ¬ IsDim s →
    ¬ HasFields s → K.root.usesMeta = false := by
  induction h with
  | optVal d s k _ _ _ _ ih =>
    intro c _ h1 h2
    refine ih c.1 ?_ h1 h2
    intro hd
    cases d with
    | fixedDim n el => exact c.2.1 n el rfl
    | varDim el => exact c.2.2 el rfl
    | _ => exact hd
  | tuple => intro _ _ _ h; exact absurd trivial h
  | struct => intro _ _ _ h; exact absurd trivial h
  | dims d s de se n n' k h1 h2 => intro _ _ h _; exact absurd (dimOf_isDim h2) h
  | bcast d s de n k h1 => intro _ h _ _; exact absurd (dimOf_isDim h1) h
  | _ => intros; rfl

theorem instA_forward : ∀ (fuel : Nat) (rest : List ANode), instA fuel (.forward :: rest) = .ub
  | 0, _ => rfl
  | fuel + 1, rest => by
    rw [instA]
    exact instA_forward fuel rest

theorem instA_root {fuel : Nat} {n : ANode} {ns rest : List ANode} {K : KTree} (h : instA fuel (n :: ns) = .ok (K, rest)) :
    K.root = n := by
  cases fuel with
  | zero => cases h
  | succ f =>
    by_cases hf : n = .forward
    · subst hf; rw [instA_forward] at h; cases h
    · rw [instA] at h
      by_cases ha : n.alive
      · rw [if_pos ha] at h
        have : (instKids (instA f) n.arity ns).bind (fun r => .ok (.mk n r.1, r.2)) = .ok (K, rest) := by
          rw [← h]; cases n <;> first | exact absurd rfl hf | rfl
        cases e : instKids (instA f) n.arity ns with
        | ok r => rw [e] at this; cases this; rfl
        | throw x => rw [e] at this; cases this
        | ub => rw [e] at this; cases this
      · rw [if_neg ha] at h; cases h
      · exact hf

theorem instCp_leaf {fuel : Nat} {lf rest : List ANode} {K : KTree} (h : instA fuel lf = .ok (K, rest))
    (hr : K.root.usesMeta = false) (dm : List UMeta) (p : Option (List UMeta)) : instCp fuel lf dm p = .ok ([], K) := by
  cases lf with
  | nil => cases fuel <;> cases h
  | cons n ns =>
    rw [instA_root h] at hr
    have e : instCp fuel (n :: ns) dm p = (instA fuel (n :: ns)).bind fun k => .ok ([], k.1) := by
      cases n <;> first | (simp [ANode.usesMeta] at hr; done) | rfl
    rw [e, h]; rfl

/-- C121: an array of dimensions `b` assigned to one of dimensions `a`, both with any strides and offsets in any memory:
    the destination has afterwards the value of the source, element by element converted with the kernel for the types
    of the elements, repeated as broadcasting asks for; or the error is reported.  Nothing else changes. -/
theorem assign_arrays_partial (same : List Nat → Bool) (om : Option AMode) {ed es : Ty} (cd : Concrete ed) (cs : Concrete es)
    (nd : ¬ IsDim ed) (ns : ¬ IsDim es) (hf : ¬ HasFields es) (hw : Works false true ed es)
    {p : Option Nat} {a b : List (Option Nat)} (h : CopyFits (p :: a) b) :
    ∃ tbl, makeAssign same = .ok tbl ∧ ∃ F K, Right (callMode om) K ed es ∧
      ∀ {α β : Type} (op : KTree → α → Res β) (src : USrc α) {sm dm : List UMeta} (_ : MetaFits b sm)
        (_ : MetaFits (p :: a) dm) {s d : Int} {u : NestVal α} (_ : viewArr src.cells src.recs sm s = some u) {sz : Nat}
        (_ : 0 < sz) {m : UDst β} (_ : Ready sz dm d m) (fuel : Nat), F ≤ fuel →
      Gives dm d m (fillWith (op K) m.recs dm b.length d u)
        (assignRun fuel (resolveA same tbl (some om) fuel true (arrTy (p :: a) ed) (arrTy b es)) op src sm s dm d m) := by
  refine ⟨_, assign_table same, ?_⟩
  obtain ⟨nds, hres, hcp⟩ := copy_joint h
  obtain ⟨F, lf, K, hr, he, _, hi⟩ := works_builds same (some om) (callMode om) (by intro b; cases om <;> rfl) hw cd cs
  refine ⟨F + 1, K, hr, ?_⟩
  intro α β op src sm dm f0 f1 s d u hu sz hsz m hrd fuel hfu
  obtain ⟨g, rfl⟩ : ∃ g, fuel = g + 1 := ⟨fuel - 1, by omega⟩
  obtain ⟨rest, _, hg⟩ := hi []
  have hk := hg (g + 1) (by omega)
  rw [List.append_nil] at hk
  have z0 : ed.ndim = 0 := not_dim_ndim cd nd
  have z1 : es.ndim = 0 := not_dim_ndim cs ns
  have hlen : b.length ≤ (p :: a).length := by
    cases h with
    | both _ _ h => simp [h]
    | rep _ h => simp; omega
  have hR : resolveA same (assignTable.map some) (some om) (g + 1) true (arrTy (p :: a) ed) (arrTy b es) = .ok (nds ++ lf) := by
    have hE : resolveElw (resolveA same (assignTable.map some) (some om) g false) (arrTy (p :: a) ed) (arrTy b es) =
        .ok (nds ++ lf) := by
      simp only [resolveElw]
      rw [arr_ndim z0, arr_ndim z1, if_neg (by omega)]
      exact hres _ ed es lf z0 z1 ns (he g (by omega))
    unfold resolveA
    by_cases hs : IsDim (arrTy b es)
    · rw [assign_choice same (e := .elwDD) (tbl_mem (by simp)) (concrete_arrTy cd _) (concrete_arrTy cs _) ⟨isDim_arr, hs⟩
        (by simp) (by simp), Res.bind_ok]
      exact hE
    · rw [assign_choice same (e := .elwDS) (tbl_mem (by simp)) (concrete_arrTy cd _) (concrete_arrTy cs _) ⟨isDim_arr, hs⟩
        (by simp) (by simp), Res.bind_ok]
      exact hE
  obtain ⟨ls, hls, hrun⟩ := hcp (op K) src sz hsz (g + 1) lf K (instCp_leaf hk (right_flat hr cd nd ns hf)) sm (some sm) dm
    f0 (.inl rfl) f1
  have ho := hrun d s m u hu hrd
  have e : assignRun (g + 1) (resolveA same (assignTable.map some) (some om) (g + 1) true (arrTy (p :: a) ed) (arrTy b es)) op
      src sm s dm d m = runCp (op K) src ls d s m := by
    simp only [assignRun, hR, Res.bind_ok, hls]
  rw [e]
  exact ho

/-! ### A new array of the same dimensions -/

theorem along_same {α β : Type} {op : α → Res β} {g : α → β} {dm : List UMeta} {k : Nat} {view : Int → Option (NestVal α)}
    {recs : Int → Option (Int × Nat)} (h : ∀ s a u, view s = some u → fillWith op recs dm k a u = .ok (u.map g)) {st' : Int} (st : Int) :
    ∀ (n : Nat) (s a : Int) (xs : List (NestVal α)), viewList view st' n s = some xs →
      alongRes (fillWith op recs dm k) st a xs = .ok (mapAll g xs)
  | 0, s, a, xs, e => by
    simp only [viewList, Option.some.injEq] at e
    subst e; rfl
  | n + 1, s, a, xs, e => by
    simp only [viewList, Option.bind_eq_some_iff, Option.map_eq_some_iff] at e
    obtain ⟨x, hx, ys, hy, rfl⟩ := e
    simp only [alongRes, mapAll]
    rw [h s a x hx, Res.bind_ok, along_same h st n (s + st') (a + st) ys hy, Res.bind_ok]
    rfl

theorem fill_same {α β : Type} {op : α → Res β} {g : α → β} (hg : ∀ x, op x = .ok (g x)) {sz : Nat} {src : USrc α} :
    ∀ (ds : List (Option Nat)) {sm : List UMeta} (_ : MetaFits ds sm) (s a : Int) (u : NestVal α),
      viewArr src.cells src.recs sm s = some u →
      fillWith op (fun _ => none) (freshMeta sz ds) ds.length a u = .ok (u.map g)
  | [], sm, h, s, a, u, e => by
    cases h
    simp only [viewArr, Option.map_eq_some_iff] at e
    obtain ⟨x, _, rfl⟩ := e
    simp only [freshMeta, fillWith, hg, Res.bind_ok, NestVal.map]
    rfl
  | some n :: ds, _, .fixed _ st h, s, a, u, e => by
    simp only [viewArr, Option.map_eq_some_iff] at e
    obtain ⟨xs, hx, rfl⟩ := e
    have hl : (freshMeta sz ds).length = ds.length := metaFits_length (fresh_fits sz ds)
    have hn := viewList_length hx
    simp only [freshMeta, fillWith, hl, List.length_cons, NestVal.items, NestVal.map]
    rw [if_neg (by omega : ¬ ds.length + 1 ≤ ds.length), if_pos (.inr hn), stretch_one hn,
      show min (ds.length + 1) ds.length = ds.length by omega,
      along_same (fun s a u hu => fill_same hg ds h s a u hu) _ n s a xs hx]
    rfl
  | none :: ds, _, .var st o h, s, a, u, e => by
    simp only [viewArr, Option.bind_eq_some_iff, Option.map_eq_some_iff] at e
    obtain ⟨r, _, xs, hx, rfl⟩ := e
    have hl : (freshMeta sz ds).length = ds.length := metaFits_length (fresh_fits sz ds)
    simp only [freshMeta, fillWith, hl, List.length_cons, NestVal.items, NestVal.map]
    rw [if_neg (by omega : ¬ ds.length + 1 ≤ ds.length), if_neg (by simp),
      show min (ds.length + 1) ds.length = ds.length by omega,
      along_same (fun s a u hu => fill_same hg ds h s a u hu) _ r.2 _ 0 xs hx]
    rfl

/-- a new array, as `nd::empty` makes it, can be assigned to -/
theorem fresh_ready {β : Type} {sz : Nat} (hsz : 0 < sz) (ds : List (Option Nat)) (base : Int) :
    Ready (β := β) sz (freshMeta sz ds) base ⟨fun _ => none, fun _ => none, base + dataSize sz ds⟩ := by
  obtain ⟨⟨h1, h2⟩, ⟨h3, h4⟩, h5⟩ := fresh_places (recs := fun _ => none) hsz ds base (fun _ _ _ => rfl)
  exact ⟨h1, h3, fun a ha => (h2 a ha).2, fun a ha => (h4 a ha).2, fun _ _ => rfl, h5⟩

/-- C121, a copy: a new array of the dimensions of the source has after the assignment the value of the source, every
    element converted (`g`; a conversion that reports no error). -/
theorem assign_new_array_partial (same : List Nat → Bool) (om : Option AMode) {ed es : Ty} (cd : Concrete ed) (cs : Concrete es)
    (nd : ¬ IsDim ed) (ns : ¬ IsDim es) (hf : ¬ HasFields es) (hw : Works false true ed es)
    {p : Option Nat} {a : List (Option Nat)} (h : CopyFits (p :: a) (p :: a)) :
    ∃ tbl, makeAssign same = .ok tbl ∧ ∃ F K, Right (callMode om) K ed es ∧
      ∀ {α β : Type} (op : KTree → α → Res β) (g : α → β) (_ : ∀ x, op K x = .ok (g x)) (src : USrc α) {sm : List UMeta}
        (_ : MetaFits (p :: a) sm) {s : Int} {u : NestVal α} (_ : viewArr src.cells src.recs sm s = some u) {sz : Nat}
        (_ : 0 < sz) (base : Int) (fuel : Nat), F ≤ fuel →
      ∃ m, assignRun fuel (resolveA same tbl (some om) fuel true (arrTy (p :: a) ed) (arrTy (p :: a) es)) op src sm s
          (freshMeta sz (p :: a)) base ⟨fun _ => none, fun _ => none, base + dataSize sz (p :: a)⟩ = .ok m ∧
        viewArr m.cells m.recs (freshMeta sz (p :: a)) base = some (u.map g) := by
  obtain ⟨tbl, ht, F, K, hr, hall⟩ := assign_arrays_partial same om cd cs nd ns hf hw h
  refine ⟨tbl, ht, F, K, hr, ?_⟩
  intro α β op g hg src sm fs s u hu sz hsz base fuel hfu
  have h1 := hall op src fs (fresh_fits sz (p :: a)) hu hsz (fresh_ready hsz (p :: a) base) fuel hfu
  rw [fill_same hg (p :: a) fs s base u hu] at h1
  obtain ⟨m, e, hst⟩ := h1
  exact ⟨m, e, hst.value _ _ (fun _ _ => rfl) (fun _ _ => rfl)⟩

end Dynd
