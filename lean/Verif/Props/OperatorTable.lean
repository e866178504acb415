/-
C118: the overload tables of the two-argument operators: they are built without an error, and which overload is
chosen for a pair of concrete types.
-/
import Verif.Model.Operators
import Verif.Props.AssignFnProps

namespace Dynd

/-! ### Sorting when every edge leads to a vertex without edges -/

/-- The finished vertices after visiting the vertices `es`, all of them without edges. -/
def pushNew : List Nat → List Nat → List Nat
  | done, [] => done
  | done, j :: es => if j ∈ done then pushNew done es else pushNew (done ++ [j]) es

/-- The finished vertices after visiting `js` one after the other. -/
def d1Idx (edges : List (List Nat)) : List Nat → List Nat → List Nat
  | done, [] => done
  | done, i :: r => if i ∈ done then d1Idx edges done r else d1Idx edges (pushNew done (edges.getD i []) ++ [i]) r

theorem d1Idx_append (edges : List (List Nat)) (b : List Nat) : ∀ (a done : List Nat),
    d1Idx edges done (a ++ b) = d1Idx edges (d1Idx edges done a) b
  | [], _ => rfl
  | i :: a, done => by
    simp only [List.cons_append, d1Idx]
    split
    · exact d1Idx_append edges b a done
    · exact d1Idx_append edges b a _

theorem mem_pushNew {x : Nat} : ∀ (es done : List Nat), x ∈ pushNew done es ↔ x ∈ done ∨ x ∈ es
  | [], done => by simp [pushNew]
  | j :: es, done => by
    simp only [pushNew]
    split
    · rename_i h
      rw [mem_pushNew es]
      simp only [List.mem_cons]
      constructor
      · rintro (h' | h') <;> simp [h']
      · rintro (h' | rfl | h')
        · exact .inl h'
        · exact .inl h
        · exact .inr h'
    · rw [mem_pushNew es]; simp [or_assoc]

theorem nodup_pushNew : ∀ (es done : List Nat), done.Nodup → (pushNew done es).Nodup
  | [], _, h => h
  | j :: es, done, h => by
    simp only [pushNew]
    split
    · exact nodup_pushNew es done h
    · rename_i hj
      exact nodup_pushNew es _ (by rw [List.nodup_append]; exact ⟨h, by simp, by intro a ha b hb; simp at hb; subst hb; intro e; exact hj (e ▸ ha)⟩)

theorem mem_d1Idx {edges : List (List Nat)} {x : Nat} : ∀ (js done : List Nat),
    (x ∈ done ∨ x ∈ js → x ∈ d1Idx edges done js) ∧
    (x ∈ d1Idx edges done js → x ∈ done ∨ x ∈ js ∨ ∃ i ∈ js, x ∈ edges.getD i [])
  | [], done => by simp [d1Idx]
  | i :: js, done => by
    simp only [d1Idx]
    split
    · rename_i h
      have ih := mem_d1Idx (edges := edges) (x := x) js done
      constructor
      · rintro (h' | h')
        · exact ih.1 (.inl h')
        · rcases List.mem_cons.1 h' with rfl | h'
          · exact ih.1 (.inl h)
          · exact ih.1 (.inr h')
      · intro h'
        rcases ih.2 h' with h' | h' | ⟨k, hk, h'⟩
        · exact .inl h'
        · exact .inr (.inl (by simp [h']))
        · exact .inr (.inr ⟨k, by simp [hk], h'⟩)
    · have ih := mem_d1Idx (edges := edges) (x := x) js (pushNew done (edges.getD i []) ++ [i])
      simp only [List.mem_append, mem_pushNew, List.mem_singleton] at ih
      constructor
      · rintro (h' | h')
        · exact ih.1 (.inl (.inl (.inl h')))
        · rcases List.mem_cons.1 h' with rfl | h'
          · exact ih.1 (.inl (.inr rfl))
          · exact ih.1 (.inr h')
      · intro h'
        rcases ih.2 h' with ((h' | h') | h') | h' | ⟨k, hk, h'⟩
        · exact .inl h'
        · exact .inr (.inr ⟨i, by simp, h'⟩)
        · exact .inr (.inl (by simp [h']))
        · exact .inr (.inl (by simp [h']))
        · exact .inr (.inr ⟨k, by simp [hk], h'⟩)

/-- every edge leads to a vertex without edges -/
def DepthOne (edges : List (List Nat)) : Prop :=
  ∀ (i : Nat) es, edges[i]? = some es → ∀ j ∈ es, edges[j]? = some []

theorem nodup_d1Idx {edges : List (List Nat)} (hd : DepthOne edges) : ∀ (js done : List Nat), done.Nodup →
    (d1Idx edges done js).Nodup
  | [], _, h => h
  | i :: js, done, h => by
    simp only [d1Idx]
    split
    · exact nodup_d1Idx hd js done h
    · rename_i hi
      refine nodup_d1Idx hd js _ ?_
      rw [List.nodup_append]
      refine ⟨nodup_pushNew _ _ h, by simp, ?_⟩
      intro a ha b hb e
      simp only [List.mem_singleton] at hb
      subst hb; subst e
      rcases (mem_pushNew _ _).1 ha with ha | ha
      · exact hi ha
      · rw [List.getD_eq_getElem?_getD] at ha
        cases he : edges[a]? with
        | none => rw [he] at ha; simp at ha
        | some es =>
          rw [he] at ha
          simp only [Option.getD_some] at ha
          have := hd a es he a ha
          rw [he] at this
          simp only [Option.some.injEq] at this
          subst this; simp at ha

/-- finishing the vertices of a list, from the initial state -/
def finished {α : Type} (verts : List α) (out : List (Option α)) (done : List Nat) : TState α :=
  done.foldl (pushV verts) { marks := List.replicate verts.length 0, res := out, pos := verts.length - 1 }

theorem finished_push {α : Type} (verts : List α) (out : List (Option α)) (done : List Nat) (j : Nat) :
    pushV verts (finished verts out done) j = finished verts out (done ++ [j]) := by
  simp [finished, List.foldl_append]

theorem finished_marks {α : Type} (verts : List α) (out : List (Option α)) (done : List Nat) {x : Nat}
    (hx : x < verts.length) : (finished verts out done).marks[x]? = if x ∈ done then some 2 else some 0 := by
  unfold finished
  rw [foldl_push_marks]
  simp [hx]

theorem finished_len {α : Type} (verts : List α) (out : List (Option α)) (done : List Nat) :
    (finished verts out done).marks.length = verts.length := by
  unfold finished
  rw [foldl_push_len]; simp

/-- the targets of the edges of `i`, while `i` is being visited -/
theorem d1_targets {α : Type} {verts : List α} {edges : List (List Nat)} {out : List (Option α)} {fuel i : Nat}
    (hel : edges.length = verts.length) (hi : i < verts.length) : ∀ (es done : List Nat), i ∉ done → i ∉ es →
    (∀ j ∈ es, edges[j]? = some []) →
    forEach (fun j t => topoVisit verts edges (fuel + 1) j t) es
        { finished verts out done with marks := (finished verts out done).marks.set i 1 } =
      .ok { finished verts out (pushNew done es) with marks := (finished verts out (pushNew done es)).marks.set i 1 }
  | [], done, _, _, _ => rfl
  | j :: es, done, hid, hie, hes => by
    simp only [List.mem_cons, not_or] at hie
    have hj := hes j (by simp)
    have hjl : j < verts.length := by have := (List.getElem?_eq_some_iff.1 hj).1; omega
    have hmj := finished_marks verts out done hjl
    simp only [forEach, pushNew]
    by_cases h : j ∈ done
    · rw [if_pos h, visit_done (by simp only []; rw [List.getElem?_set_ne hie.1, hmj, if_pos h]) (by omega) hjl, Res.bind_ok]
      exact d1_targets hel hi es done hid hie.2 (fun j hj => hes j (by simp [hj]))
    · rw [if_neg h, visit_leaf (by simp only []; rw [List.getElem?_set_ne hie.1, hmj, if_neg h]) hj hjl, Res.bind_ok]
      have e : pushV verts { finished verts out done with marks := (finished verts out done).marks.set i 1 } j =
          { finished verts out (done ++ [j]) with marks := (finished verts out (done ++ [j])).marks.set i 1 } := by
        rw [← finished_push]
        simp only [pushV]
        rw [List.set_comm _ _ (show i ≠ j from hie.1)]
      rw [e]
      exact d1_targets hel hi es _ (by simp [hid, hie.1]) hie.2 (fun j hj => hes j (by simp [hj]))

theorem d1_visit {α : Type} {verts : List α} {edges : List (List Nat)} {out : List (Option α)} {fuel i : Nat}
    (hd : DepthOne edges) (hel : edges.length = verts.length) (hi : i < verts.length) {done : List Nat} (hid : i ∉ done) :
    topoVisit verts edges (fuel + 2) i (finished verts out done) =
      .ok (finished verts out (pushNew done (edges.getD i []) ++ [i])) := by
  have he : edges[i]? = some edges[i] := List.getElem?_eq_getElem (by omega)
  have hes : edges.getD i [] = edges[i] := by rw [List.getD_eq_getElem?_getD, he]; rfl
  have hin : i ∉ edges[i] := by
    intro hm
    have := hd i _ he i hm
    rw [he] at this
    simp only [Option.some.injEq] at this
    rw [this] at hm; simp at hm
  rw [hes, topoVisit, finished_marks verts out done hi, if_neg hid, he, List.getElem?_eq_getElem hi]
  simp only [show ¬ ((0:Nat) = 1) by omega, if_false, show ¬ ((0:Nat) = 2) by omega]
  rw [d1_targets hel hi _ _ hid hin (hd i _ he), Res.bind_ok, Res.pure_eq, ← finished_push]
  simp only [pushV]
  rw [List.set_set, List.getElem?_eq_getElem hi]

theorem d1_forEach {α : Type} {verts : List α} {edges : List (List Nat)} {out : List (Option α)} {fuel : Nat}
    (hd : DepthOne edges) (hel : edges.length = verts.length) : ∀ (js done : List Nat), (∀ j ∈ js, j < verts.length) →
    forEach (fun i t => topoVisit verts edges (fuel + 2) i t) js (finished verts out done) =
      .ok (finished verts out (d1Idx edges done js))
  | [], _, _ => rfl
  | i :: js, done, h => by
    have hi := h i (by simp)
    simp only [forEach, d1Idx]
    by_cases hid : i ∈ done
    · rw [if_pos hid, visit_done (by rw [finished_marks verts out done hi, if_pos hid]) (by omega) hi, Res.bind_ok]
      exact d1_forEach hd hel js done (fun j hj => h j (by simp [hj]))
    · rw [if_neg hid, d1_visit hd hel hi hid, Res.bind_ok]
      exact d1_forEach hd hel js _ (fun j hj => h j (by simp [hj]))

theorem d1_length {edges : List (List Nat)} (hd : DepthOne edges) :
    (d1Idx edges [] (List.range edges.length)).length = edges.length := by
  have hn := nodup_d1Idx hd (List.range edges.length) [] (by simp)
  have hp : (d1Idx edges [] (List.range edges.length)).Perm (List.range edges.length) := by
    rw [List.perm_ext_iff_of_nodup hn List.nodup_range]
    intro a
    constructor
    · intro h
      rcases (mem_d1Idx _ _).2 h with h | h | ⟨i, hi, h⟩
      · simp at h
      · exact h
      · simp only [List.mem_range] at hi ⊢
        rw [List.getD_eq_getElem?_getD, List.getElem?_eq_getElem hi] at h
        exact (List.getElem?_eq_some_iff.1 (hd i _ (List.getElem?_eq_getElem hi) a h)).1
    · intro h; exact (mem_d1Idx _ _).1 (.inr h)
  rw [hp.length_eq]; simp

/-- What `dispatcher::assign` does when every ambiguity is resolved by another overload. -/
theorem dispAssign_edges2 {T F : Type} {m : T → T → Bool} {sig : F → List T} {ch : List (Option F)} {fs : List F}
    (hamb : ∀ u ∈ fs, ∀ v ∈ fs, ambiguous m (sig u) (sig v) = true →
      ∃ k ∈ fs, supercedes m (sig k) (sig u) = true ∧ supercedes m (sig k) (sig v) = true) :
    ∃ es, es.length = fs.length ∧
      (∀ a b, HasE es a b ↔ ∃ u v, fs[a]? = some u ∧ fs[b]? = some v ∧ edge m (sig u) (sig v) = true) ∧
      ∀ r, topoSort fs es (resizeChildren ch fs.length) = .ok r → dispAssign m sig ch fs = (r, .ok ()) := by
  have hat : ∀ (i : Nat) u, (fs.map sig)[i]? = some u → ∃ f, fs[i]? = some f ∧ f ∈ fs ∧ sig f = u := by
    intro i u h
    rw [List.getElem?_map] at h
    cases hf : fs[i]? with
    | none => rw [hf] at h; cases h
    | some f => rw [hf] at h; exact ⟨f, rfl, List.mem_of_getElem? hf, by simpa using h⟩
  rcases buildEdges_spec m (fs.map sig) with ⟨⟨i, j, _, u, v, hu, hv, h1, h2, h3, h4⟩, _⟩ | ⟨_, es, e, hl, hE⟩
  · obtain ⟨fu, _, mu, rfl⟩ := hat i u hu
    obtain ⟨fv, _, mv, rfl⟩ := hat j v hv
    obtain ⟨k, hk, k1, k2⟩ := hamb fu mu fv mv ((ambiguous_iff).2 ⟨h1, h2, h3⟩)
    exact absurd ⟨supercedes_iff.1 k1, supercedes_iff.1 k2⟩ (h4 (sig k) (by simp; exact ⟨k, hk, rfl⟩))
  · refine ⟨es, by simpa using hl, ?_, ?_⟩
    · intro a b
      rw [hE]
      constructor
      · rintro ⟨u, v, hu, hv, h⟩
        obtain ⟨fu, gu, mu, rfl⟩ := hat a u hu
        obtain ⟨fv, gv, mv, rfl⟩ := hat b v hv
        exact ⟨fu, fv, gu, gv, h⟩
      · rintro ⟨u, v, hu, hv, h⟩
        exact ⟨sig u, sig v, by simp [hu], by simp [hv], h⟩
    · intro r hr
      unfold dispAssign
      simp only []
      rw [e]
      simp only []
      rw [hr]

/-- Registering overloads none of which is less specific than one and more specific than another. -/
theorem d1_dispAssign {T F : Type} {m : T → T → Bool} {sig : F → List T} {ch : List (Option F)} {fs : List F}
    (h0 : fs ≠ [])
    (hamb : ∀ u ∈ fs, ∀ v ∈ fs, ambiguous m (sig u) (sig v) = true →
      ∃ k ∈ fs, supercedes m (sig k) (sig u) = true ∧ supercedes m (sig k) (sig v) = true)
    (hd : ∀ u ∈ fs, ∀ v ∈ fs, ∀ w ∈ fs, edge m (sig u) (sig v) = true → edge m (sig v) (sig w) = false) :
    ∃ es : List (List Nat), es.length = fs.length ∧ DepthOne es ∧
      (∀ a b, b ∈ es.getD a [] ↔ ∃ u v, fs[a]? = some u ∧ fs[b]? = some v ∧ edge m (sig u) (sig v) = true) ∧
      dispAssign m sig ch fs = ((d1Idx es [] (List.range fs.length)).reverse.map fun i => fs[i]?, .ok ()) := by
  obtain ⟨es, hl, hE, hr⟩ := dispAssign_edges2 (ch := ch) hamb
  have hE' : ∀ a b, b ∈ es.getD a [] ↔ ∃ u v, fs[a]? = some u ∧ fs[b]? = some v ∧ edge m (sig u) (sig v) = true := by
    intro a b
    rw [← hE]
    unfold HasE
    rw [List.getD_eq_getElem?_getD]
    cases es[a]? <;> simp
  have hd1 : DepthOne es := by
    intro i l hi j hj
    have : j ∈ es.getD i [] := by rw [List.getD_eq_getElem?_getD, hi]; exact hj
    obtain ⟨u, v, hu, hv, e⟩ := (hE' i j).1 this
    have hjl : j < es.length := by have := (List.getElem?_eq_some_iff.1 hv).1; omega
    rw [List.getElem?_eq_getElem hjl]
    cases hc : es[j] with
    | nil => rfl
    | cons k l' =>
      obtain ⟨v', w, hv', hw, e'⟩ := (hE' j k).1 (by
        rw [List.getD_eq_getElem?_getD, List.getElem?_eq_getElem hjl, hc]; simp)
      rw [hv, Option.some.injEq] at hv'
      subst hv'
      rw [hd u (List.mem_of_getElem? hu) v (List.mem_of_getElem? hv) w (List.mem_of_getElem? hw) e] at e'
      cases e'
  refine ⟨es, hl, hd1, hE', hr _ ?_⟩
  have hlen : 0 < fs.length := List.length_pos_iff.2 h0
  unfold topoSort
  obtain ⟨f, hf⟩ : ∃ f, fs.length + 1 = f + 2 := ⟨fs.length - 1, by omega⟩
  rw [if_neg (by omega), hf]
  have key := d1_forEach (verts := fs) (out := resizeChildren ch fs.length) (fuel := f) hd1 hl (List.range fs.length) []
    (by simp)
  have e0 : finished fs (resizeChildren ch fs.length) [] =
    { marks := List.replicate fs.length 0, res := resizeChildren ch fs.length, pos := fs.length - 1 } := rfl
  rw [e0] at key
  rw [key, Res.bind_ok, Res.pure_eq]
  have hL := d1_length hd1
  rw [hl] at hL
  unfold finished
  rw [foldl_push_res fs _ _ (resizeChildren ch fs.length) [] (by simp) (by rw [resizeChildren_length, hL]) (by simp [hL])]
  simp

/-! ### The patterns -/

/-- the patterns of the operators: those of the assignment table and `?Scalar` -/
inductive OP where
  | pc (p : PC) | optS

/-- the pattern of that name -/
def OP.ty : OP → Ty
  | .pc p => p.ty
  | .optS => .option (.kind .scalar)

/-- Is the second pattern an instance of the first one? -/
def opMatch (fl : Bool) : OP → OP → Bool
  | .pc p, .pc q => pcMatch fl p q
  | .pc .any, .optS | .pc .scal, .optS | .pc .opt, .optS | .optS, .optS => true
  | _, _ => false

theorem tyMatch_optS (same : List Nat → Bool) (c : Ty) :
    tyMatch same (.option (.kind .scalar)) c = match c with | .option t => t.isScalar | _ => false := by
  unfold tyMatch matchFresh
  unfold matchTy
  by_cases h : (same [] && tyEq (.option (.kind .scalar)) c) = true
  · simp only [if_pos h]
    simp only [Bool.and_eq_true] at h
    have := (tyEq_iff _ _).1 h.2
    subst this; rfl
  · simp only [if_neg h]; clear h
    cases c <;> try rfl
    rename_i t
    simp only []
    unfold matchTy
    by_cases h : ((fun q => same (0 :: q)) [] && tyEq (.kind .scalar) t) = true
    · simp only [if_pos h]
      simp only [Bool.and_eq_true] at h
      have := (tyEq_iff _ _).1 h.2
      subst this; rfl
    · simp only [if_neg h]; rfl

theorem tyMatch_op (same : List Nat → Bool) (p q : OP) : tyMatch same p.ty q.ty = opMatch (same []) p q := by
  cases p with
  | pc p =>
    rw [show (OP.pc p).ty = p.ty from rfl, tyMatch_pat same (pc_tablePat p)]
    cases q with
    | pc q => exact patMatch_pc _ p q
    | optS => cases p <;> first | rfl | (cases (same []) <;> rfl) | simp [OP.ty, PC.ty, patMatch, opMatch, tyEq, Ty.ndim]
  | optS =>
    rw [show OP.optS.ty = .option (.kind .scalar) from rfl, tyMatch_optS]
    cases q with
    | pc q => cases q <;> rfl
    | optS => rfl

/-- not added by the user -/
def OEntry.builtin : OEntry → Bool
  | .user _ _ => false
  | _ => true

/-- the names of the two patterns of an overload -/
def OEntry.ops : OEntry → OP × OP
  | .num a b => (.pc (.prim a), .pc (.prim b))
  | .na0 => (.pc .opt, .pc .any)
  | .na1 => (.pc .any, .pc .opt)
  | .na01 => (.pc .opt, .pc .opt)
  | .elwDS => (.pc .dim, .pc .scal)
  | .elwSD => (.pc .scal, .pc .dim)
  | .elwDD => (.pc .dim, .pc .dim)
  | .elwSS => (.pc .scal, .pc .scal)
  | .elwDO => (.pc .dim, .optS)
  | .elwOD => (.optS, .pc .dim)
  | .strStr => (.pc .str, .pc .str)
  | .tupTup => (.pc .tup, .pc .tup)
  | .structStruct => (.pc .stru, .pc .stru)
  | .typeType => (.pc .typ, .pc .typ)
  | .bytesBytes => (.pc .byt, .pc .byt)
  | .user _ _ => (.pc .any, .pc .any)

theorem osig_ops {e : OEntry} (h : e.builtin = true) : e.sig = [e.ops.1.ty, e.ops.2.ty] := by
  cases e <;> first | rfl | exact Bool.noConfusion h

/-- `supercedes` on the named patterns -/
def oSup (fl : Bool) (u v : OEntry) : Bool := opMatch fl v.ops.1 u.ops.1 && opMatch fl v.ops.2 u.ops.2

theorem osup_ops (same : List Nat → Bool) {u v : OEntry} (hu : u.builtin = true) (hv : v.builtin = true) :
    supercedes (tyMatch same) u.sig v.sig = oSup (same []) u v := by
  rw [osig_ops hu, osig_ops hv]
  simp only [supercedes, tyMatch_op, Bool.and_true, oSup]

theorem ocon_ops (same : List Nat → Bool) {u v : OEntry} (hu : u.builtin = true) (hv : v.builtin = true) :
    consistent (tyMatch same) u.sig v.sig =
      ((opMatch (same []) u.ops.1 v.ops.1 || opMatch (same []) v.ops.1 u.ops.1) &&
        (opMatch (same []) u.ops.2 v.ops.2 || opMatch (same []) v.ops.2 u.ops.2)) := by
  rw [osig_ops hu, osig_ops hv]
  simp only [consistent, tyMatch_op, Bool.and_true]

/-- the overloads others are more specific than -/
def OEntry.top : OEntry → Bool
  | .na0 | .na1 | .elwDS | .elwSD | .elwSS => true
  | _ => false

theorem oedge_top (same : List Nat → Bool) {u v : OEntry} (hu : u.builtin = true) (hv : v.builtin = true)
    (h : edge (tyMatch same) u.sig v.sig = true) : v.top = true ∧ u.top = false := by
  unfold edge at h
  rw [osup_ops same hu hv, osup_ops same hv hu] at h
  cases u
  case num a b =>
    cases v
    case num c d =>
      exfalso
      simp only [oSup, OEntry.ops, opMatch, pcMatch] at h
      by_cases h1 : c = a
      · by_cases h2 : d = b
        · subst h1; subst h2; simp at h
        · simp [h2] at h
      · simp [h1] at h
    all_goals first | exact ⟨rfl, rfl⟩ | exact Bool.noConfusion hv | exact Bool.noConfusion h
  case user => exact Bool.noConfusion hu
  all_goals cases v <;> first | exact ⟨rfl, rfl⟩ | exact Bool.noConfusion hv | exact Bool.noConfusion h

theorem oamb (same : List Nat → Bool) {u v : OEntry} (hu : u.builtin = true) (hv : v.builtin = true)
    (h : ambiguous (tyMatch same) u.sig v.sig = true) : (u = .na0 ∧ v = .na1) ∨ (u = .na1 ∧ v = .na0) := by
  unfold ambiguous at h
  rw [ocon_ops same hu hv, osup_ops same hu hv, osup_ops same hv hu] at h
  cases u
  case num a b =>
    cases v
    case num c d =>
      exfalso
      simp only [oSup, OEntry.ops, opMatch, pcMatch] at h
      by_cases h1 : c = a
      · by_cases h2 : d = b
        · subst h1; subst h2; simp at h
        · simp [h2, Ne.symm h2] at h
      · simp [h1, Ne.symm h1] at h
    all_goals first | exact Bool.noConfusion hv | exact Bool.noConfusion h
  case user => exact Bool.noConfusion hu
  all_goals cases v <;> first | exact Bool.noConfusion hv | exact Bool.noConfusion h | exact .inl ⟨rfl, rfl⟩ | exact .inr ⟨rfl, rfl⟩

theorem oedge_eq (same : List Nat → Bool) {u v : OEntry} (hu : u.builtin = true) (hv : v.builtin = true) :
    edge (tyMatch same) u.sig v.sig = (oSup (same []) u v && !oSup (same []) v u) := by
  unfold edge
  rw [osup_ops same hu hv, osup_ops same hv hu]
  cases oSup (same []) u v <;> cases oSup (same []) v u <;> rfl

/-! ### Building a table -/

/-- an ambiguity between `na0` and `na1` is resolved by `na01` -/
def naResolved (l : List OEntry) : Prop := .na0 ∈ l → .na1 ∈ l → .na01 ∈ l

theorem oamb_resolved (same : List Nat → Bool) {l : List OEntry} (hb : ∀ e ∈ l, e.builtin = true) (hr : naResolved l) :
    ∀ u ∈ l, ∀ v ∈ l, ambiguous (tyMatch same) u.sig v.sig = true →
      ∃ k ∈ l, supercedes (tyMatch same) k.sig u.sig = true ∧ supercedes (tyMatch same) k.sig v.sig = true := by
  intro u hu v hv h
  have e0 : supercedes (tyMatch same) OEntry.na01.sig OEntry.na0.sig = true := by
    rw [osup_ops same rfl rfl]; rfl
  have e1 : supercedes (tyMatch same) OEntry.na01.sig OEntry.na1.sig = true := by
    rw [osup_ops same rfl rfl]; rfl
  rcases oamb same (hb u hu) (hb v hv) h with ⟨rfl, rfl⟩ | ⟨rfl, rfl⟩
  · exact ⟨.na01, hr hu hv, e0, e1⟩
  · exact ⟨.na01, hr hv hu, e1, e0⟩

theorem o_depthOne (same : List Nat → Bool) {l : List OEntry} (hb : ∀ e ∈ l, e.builtin = true) :
    ∀ u ∈ l, ∀ v ∈ l, ∀ w ∈ l, edge (tyMatch same) u.sig v.sig = true → edge (tyMatch same) v.sig w.sig = false := by
  intro u hu v hv w hw h
  cases hc : edge (tyMatch same) v.sig w.sig with
  | false => rfl
  | true =>
    have h1 := (oedge_top same (hb u hu) (hb v hv) h).1
    have h2 := (oedge_top same (hb v hv) (hb w hw) hc).2
    rw [h1] at h2; cases h2

/-- One `insert` call. -/
theorem opInsert_ok (same : List Nat → Bool) (l fs : List OEntry) (h0 : l ++ fs ≠ [])
    (hb : ∀ e ∈ l ++ fs, e.builtin = true) (hr : naResolved (l ++ fs)) :
    ∃ l' : List OEntry, opInsert same (l.map some) fs = .ok (l'.map some) ∧ l'.Perm (l ++ fs) ∧
      DispReach (tyMatch same) OEntry.sig (l ++ fs) (l'.map some) := by
  obtain ⟨es, _, _, _, e⟩ := d1_dispAssign (ch := l.map some) h0 (oamb_resolved same hb hr) (o_depthOne same hb)
  obtain ⟨gs, hgs, hp, _⟩ := assign_orderedE h0 e
  refine ⟨gs, ?_, hp, ?_⟩
  · unfold opInsert
    rw [if_pos (by simp), filterMap_some, e, hgs]
  · rw [← hgs]
    exact .assign h0 e

/-- the overloads of a sequence of `insert` calls meet the conditions at every step -/
def insOk : List (List OEntry) → List OEntry → Prop
  | [], _ => True
  | fs :: rest, l => l ++ fs ≠ [] ∧ (∀ e ∈ l ++ fs, e.builtin = true) ∧ naResolved (l ++ fs) ∧ insOk rest (l ++ fs)

theorem opInserts_ok (same : List Nat → Bool) : ∀ (ins : List (List OEntry)) (l l0 : List OEntry), l.Perm l0 → ins ≠ [] →
    insOk ins l0 →
    ∃ l' fs : List OEntry, opInserts same ins (l.map some) = .ok (l'.map some) ∧ fs.Perm (l0 ++ ins.flatten) ∧
      DispReach (tyMatch same) OEntry.sig fs (l'.map some)
  | [], _, _, _, h, _ => absurd rfl h
  | fs :: rest, l, l0, hp, _, hk => by
    obtain ⟨h0, hb, hr, hrest⟩ := hk
    have hp' : (l ++ fs).Perm (l0 ++ fs) := hp.append_right fs
    have hm : ∀ e, e ∈ l ++ fs ↔ e ∈ l0 ++ fs := fun e => hp'.mem_iff
    obtain ⟨l', e, hpl, hd⟩ := opInsert_ok same l fs (by
        intro h; rw [h] at hp'; exact h0 (List.nil_perm.1 hp')) (fun e he => hb e ((hm e).1 he))
      (fun h1 h2 => (hm _).2 (hr ((hm _).1 h1) ((hm _).1 h2)))
    simp only [opInserts]
    rw [e, Res.bind_ok]
    cases rest with
    | nil => exact ⟨l', l ++ fs, rfl, by simpa using hp', hd⟩
    | cons gs rest =>
      obtain ⟨l'', fs', e', hp'', hd'⟩ := opInserts_ok same (gs :: rest) l' (l0 ++ fs) (hpl.trans hp') (by simp) hrest
      exact ⟨l'', fs', e', by simpa using hp'', hd'⟩

/-! ### The arithmetic table -/

theorem pushNew_sub : ∀ (es done : List Nat), (∀ j ∈ es, j ∈ done) → pushNew done es = done
  | [], _, _ => rfl
  | j :: es, done, h => by
    rw [pushNew, if_pos (h j (by simp))]
    exact pushNew_sub es done (fun j hj => h j (by simp [hj]))

theorem pushNew_one {s : Nat} {es done : List Nat} (h : ∀ j, j ∈ es ↔ j = s) (hs : s ∉ done) :
    pushNew done es = done ++ [s] := by
  cases es with
  | nil => exact absurd ((h s).2 rfl) (by simp)
  | cons j es =>
    have : j = s := (h j).1 (by simp)
    subst this
    rw [pushNew, if_neg hs]
    exact pushNew_sub es _ (fun k hk => by rw [(h k).1 (by simp [hk])]; simp)

theorem d1_run {es : List (List Nat)} : ∀ (js done : List Nat), js.Nodup → (∀ j ∈ js, j ∉ done) →
    (∀ j ∈ js, ∀ b ∈ es.getD j [], b ∈ done) → d1Idx es done js = done ++ js
  | [], done, _, _, _ => by simp [d1Idx]
  | i :: js, done, hn, h1, h2 => by
    simp only [List.nodup_cons] at hn
    rw [d1Idx, if_neg (h1 i (by simp)), pushNew_sub _ _ (h2 i (by simp)),
      d1_run js (done ++ [i]) hn.2 (fun j hj => by
        simp only [List.mem_append, List.mem_singleton, not_or]
        exact ⟨h1 j (by simp [hj]), fun e => hn.1 (e ▸ hj)⟩)
      (fun j hj b hb => by simp [h2 j (by simp [hj]) b hb])]
    simp

/-- Vertices all leading to the one vertex `s`. -/
theorem d1_hubRun {es : List (List Nat)} {s : Nat} {js done : List Nat} (hn : js.Nodup) (h0 : js ≠ [])
    (h1 : ∀ j ∈ js, j ∉ done) (hs : s ∉ done) (hsj : s ∉ js) (h2 : ∀ j ∈ js, ∀ b, b ∈ es.getD j [] ↔ b = s) :
    d1Idx es done js = done ++ s :: js := by
  cases js with
  | nil => exact absurd rfl h0
  | cons i js =>
    simp only [List.nodup_cons] at hn
    simp only [List.mem_cons, not_or] at hsj
    rw [d1Idx, if_neg (h1 i (by simp)), pushNew_one (h2 i (by simp)) hs,
      d1_run js _ hn.2 (fun j hj => by
        simp only [List.mem_append, List.mem_singleton, not_or]
        exact ⟨⟨h1 j (by simp [hj]), fun e => hsj.2 (e ▸ hj)⟩, fun e => hn.1 (e ▸ hj)⟩)
      (fun j hj b hb => by rw [(h2 j (by simp [hj]) b).1 hb]; simp)]
    simp

/-- entries of arithmetic tables -/
def OEntry.arith : OEntry → Bool
  | .num _ _ | .na0 | .na1 | .na01 | .elwDS | .elwSD | .elwDD | .elwSS => true
  | _ => false

/-- the relation "more specific" in an arithmetic table -/
def arithEdge : OEntry → OEntry → Bool
  | .num _ _, .elwSS | .na01, .na0 | .na01, .na1 => true
  | _, _ => false

theorem arith_builtin {e : OEntry} (h : e.arith = true) : e.builtin = true := by
  cases e <;> first | rfl | exact Bool.noConfusion h

theorem oedge_arith (same : List Nat → Bool) {u v : OEntry} (hu : u.arith = true) (hv : v.arith = true) :
    edge (tyMatch same) u.sig v.sig = arithEdge u v := by
  rw [oedge_eq same (arith_builtin hu) (arith_builtin hv)]
  cases u
  case num a b =>
    cases v
    case num c d =>
      simp only [oSup, OEntry.ops, opMatch, pcMatch, arithEdge]
      by_cases h1 : c = a
      · by_cases h2 : d = b
        · subst h1; subst h2; simp
        · simp [h2]
      · simp [h1]
    all_goals first | rfl | exact Bool.noConfusion hv
  all_goals cases v <;> first | rfl | exact Bool.noConfusion hu | exact Bool.noConfusion hv

/-- the overloads for built-in types -/
def numEntries (ps : List (BTy × BTy)) : List OEntry := ps.map fun p => .num p.1 p.2

/-- The overloads of an arithmetic operator in the order they are tried. -/
def arithTable (ps : List (BTy × BTy)) : List OEntry :=
  [.elwDD, .elwSD, .elwDS, .na01, .na1, .na0] ++ numEntries ps ++ [.elwSS]

theorem mem_numEntries {ps : List (BTy × BTy)} {e : OEntry} : e ∈ numEntries ps ↔ ∃ a b, (a, b) ∈ ps ∧ e = .num a b := by
  simp only [numEntries, List.mem_map, Prod.exists]
  constructor
  · rintro ⟨a, b, h, rfl⟩; exact ⟨a, b, h, rfl⟩
  · rintro ⟨a, b, h, rfl⟩; exact ⟨a, b, h, rfl⟩

theorem num_index {R : List OEntry} (hR : ∀ e ∈ R, ∃ a b, e = .num a b) {T : List OEntry} {b : Nat} {v : OEntry}
    (hv : (R ++ T)[b]? = some v) (hn : ∀ x y, v ≠ .num x y) : ∃ k, b = R.length + k ∧ T[k]? = some v := by
  by_cases hb : b < R.length
  · rw [List.getElem?_append_left hb] at hv
    obtain ⟨x, y, h⟩ := hR v (List.mem_of_getElem? hv)
    exact absurd h (hn x y)
  · rw [List.getElem?_append_right (by omega)] at hv
    exact ⟨b - R.length, by omega, hv⟩

theorem range_seven (r : Nat) : List.range (r + 7) =
    List.range r ++ ([r, r + 1] ++ ([r + 2, r + 3, r + 4, r + 5] ++ [r + 6])) := by
  simp [List.range_succ]

theorem map_get_left {α : Type} (R T : List α) :
    ((List.range R.length).map fun i => (R ++ T)[i]?) = R.map some := by
  rw [← range_map_get R]
  apply List.map_congr_left
  intro i hi
  simp only [List.mem_range] at hi
  exact List.getElem?_append_left hi

theorem map_get_right {α : Type} (R T : List α) (k : Nat) : (R ++ T)[R.length + k]? = T[k]? := by
  rw [List.getElem?_append_right (by omega)]; congr 1; omega

/-- The table of an arithmetic operator: it is built without an error, in this order. -/
theorem arith_table (same : List Nat → Bool) {ps : List (BTy × BTy)} (h0 : ps ≠ []) :
    makeArith same ps = .ok ((arithTable ps).map some) := by
  unfold makeArith
  have hne : numEntries ps ≠ [] := by simp [numEntries, h0]
  have numA : ∀ e ∈ numEntries ps, ∃ a b, e = .num a b := by
    intro e he; obtain ⟨a, b, _, h⟩ := mem_numEntries.1 he; exact ⟨a, b, h⟩
  have e1 : opInsert same [] (numEntries ps) = .ok ((numEntries ps).reverse.map some) := by
    unfold opInsert
    rw [if_pos (by rfl)]
    show (match dispAssign (tyMatch same) OEntry.sig [] (numEntries ps) with | (r, .ok _) => Res.ok r | (_, .throw e) => .throw e | (_, .ub) => .ub) = _
    rw [flat_dispAssign hne]
    · intro u hu v hv
      obtain ⟨a, b, rfl⟩ := numA u hu
      obtain ⟨c, d, rfl⟩ := numA v hv
      cases hc : ambiguous (tyMatch same) (OEntry.num a b).sig (OEntry.num c d).sig with
      | false => rfl
      | true => rcases oamb same rfl rfl hc with ⟨h, _⟩ | ⟨h, _⟩ <;> cases h
    · intro u hu v hv
      obtain ⟨a, b, rfl⟩ := numA u hu
      obtain ⟨c, d, rfl⟩ := numA v hv
      rw [oedge_arith same rfl rfl]; rfl
  have hins : opInserts same [ps.map fun p => .num p.1 p.2, [.na0, .na1, .na01, .elwDS, .elwSD, .elwDD, .elwSS]] [] =
      (opInsert same ((numEntries ps).reverse.map some) [.na0, .na1, .na01, .elwDS, .elwSD, .elwDD, .elwSS]).bind fun c => .ok c := by
    simp only [opInserts]
    show ((opInsert same [] (numEntries ps)).bind _) = _
    rw [e1]; rfl
  rw [hins]
  obtain ⟨R, hR⟩ : ∃ R, R = (numEntries ps).reverse := ⟨_, rfl⟩
  obtain ⟨T, hT⟩ : ∃ T : List OEntry, T = [.na0, .na1, .na01, .elwDS, .elwSD, .elwDD, .elwSS] := ⟨_, rfl⟩
  have hRn : ∀ e ∈ R, ∃ a b, e = .num a b := fun e he => numA e (by simpa [hR] using he)
  have hR0 : 0 < R.length := by rw [hR]; simpa using List.length_pos_iff.2 hne
  rw [← hR, ← hT]
  have hA : ∀ e ∈ R ++ T, e.arith = true := by
    intro e he
    rcases List.mem_append.1 he with he | he
    · obtain ⟨a, b, rfl⟩ := hRn e he; rfl
    · rw [hT] at he
      simp only [List.mem_cons, List.not_mem_nil, or_false] at he
      rcases he with rfl | rfl | rfl | rfl | rfl | rfl | rfl <;> rfl
  have hB : ∀ e ∈ R ++ T, e.builtin = true := fun e he => arith_builtin (hA e he)
  obtain ⟨es, hl, hd, hE, e⟩ := d1_dispAssign (ch := R.map some) (fs := R ++ T) (by simp [hT])
    (oamb_resolved same hB (fun _ _ => by simp [hT])) (o_depthOne same hB)
  have hE' : ∀ a b, b ∈ es.getD a [] ↔ ∃ u v, (R ++ T)[a]? = some u ∧ (R ++ T)[b]? = some v ∧ arithEdge u v = true := by
    intro a b
    rw [hE]
    constructor
    · rintro ⟨u, v, hu, hv, h⟩
      exact ⟨u, v, hu, hv, by rw [← oedge_arith same (hA u (List.mem_of_getElem? hu)) (hA v (List.mem_of_getElem? hv))]; exact h⟩
    · rintro ⟨u, v, hu, hv, h⟩
      exact ⟨u, v, hu, hv, by rw [oedge_arith same (hA u (List.mem_of_getElem? hu)) (hA v (List.mem_of_getElem? hv))]; exact h⟩
  have hub : ∀ j ∈ List.range R.length, ∀ b, b ∈ es.getD j [] ↔ b = R.length + 6 := by
    intro j hj b
    simp only [List.mem_range] at hj
    have hj' : (R ++ T)[j]? = some R[j] := by rw [List.getElem?_append_left hj]; exact List.getElem?_eq_getElem hj
    obtain ⟨x, y, hxy⟩ := hRn R[j] (List.getElem_mem hj)
    rw [hxy] at hj'
    rw [hE']
    constructor
    · rintro ⟨u, v, hu, hv, h⟩
      rw [hj', Option.some.injEq] at hu
      subst hu
      obtain ⟨k, rfl, hk⟩ := num_index hRn hv (fun x y e => by subst e; cases h)
      subst hT
      match k with
      | 0 | 1 | 2 | 3 | 4 | 5 => simp at hk; subst hk; cases h
      | 6 => rfl
      | k + 7 => simp at hk
    · rintro rfl
      exact ⟨_, .elwSS, hj', by rw [map_get_right, hT]; rfl, rfl⟩
  have leaf : ∀ k u, T[k]? = some u → (u = .na01 → False) → es.getD (R.length + k) [] = [] := by
    intro k u hk hu
    cases hc : es.getD (R.length + k) [] with
    | nil => rfl
    | cons b l =>
      exfalso
      obtain ⟨u', v, hu', _, h⟩ := (hE' (R.length + k) b).1 (by rw [hc]; simp)
      rw [map_get_right, hk, Option.some.injEq] at hu'
      subst hu'
      have : u ∈ T := List.mem_of_getElem? hk
      rw [hT] at this
      simp only [List.mem_cons, List.not_mem_nil, or_false] at this
      rcases this with rfl | rfl | rfl | rfl | rfl | rfl | rfl
      case inr.inr.inl => exact hu rfl
      all_goals cases v <;> cases h
  have na : ∀ b ∈ es.getD (R.length + 2) [], b = R.length ∨ b = R.length + 1 := by
    intro b hb
    obtain ⟨u, v, hu, hv, h⟩ := (hE' _ b).1 hb
    rw [map_get_right, hT] at hu
    simp at hu
    subst hu
    obtain ⟨k, rfl, hk⟩ := num_index hRn hv (fun x y e => by subst e; cases h)
    subst hT
    match k with
    | 0 => exact .inl rfl
    | 1 => exact .inr rfl
    | 2 | 3 | 4 | 5 | 6 => simp at hk; subst hk; cases h
    | k + 7 => simp at hk
  have hlen : (R ++ T).length = R.length + 7 := by rw [hT]; simp
  have ho : d1Idx es [] (List.range (R ++ T).length) =
      (R.length + 6) :: (List.range R.length ++ ([R.length, R.length + 1] ++ [R.length + 2, R.length + 3, R.length + 4, R.length + 5])) := by
    rw [hlen, range_seven, d1Idx_append, d1Idx_append, d1Idx_append]
    rw [d1_hubRun List.nodup_range (by intro h; have := congrArg List.length h; simp at this; rw [this] at hR0; simp at hR0) (by simp) (by simp) (by simp) hub]
    rw [d1_run [R.length, R.length + 1] _ (by simp) (by
      intro j hj
      simp only [List.mem_cons, List.not_mem_nil, or_false] at hj
      simp only [List.nil_append, List.mem_cons, List.mem_range, not_or]
      rcases hj with rfl | rfl <;> omega) (by
      intro j hj b hb
      simp only [List.mem_cons, List.not_mem_nil, or_false] at hj
      rcases hj with rfl | rfl
      · rw [show R.length = R.length + 0 from rfl, leaf 0 .na0 (by rw [hT]; rfl) (by simp)] at hb; simp at hb
      · rw [leaf 1 .na1 (by rw [hT]; rfl) (by simp)] at hb; simp at hb)]
    rw [d1_run [R.length + 2, R.length + 3, R.length + 4, R.length + 5] _ (by simp) (by
      intro j hj
      simp only [List.mem_cons, List.not_mem_nil, or_false] at hj
      simp only [List.nil_append, List.mem_cons, List.mem_append, List.mem_range, List.cons_append, List.not_mem_nil, or_false, not_or]
      rcases hj with rfl | rfl | rfl | rfl <;> omega) (by
      intro j hj b hb
      simp only [List.mem_cons, List.not_mem_nil, or_false] at hj
      rcases hj with rfl | rfl | rfl | rfl
      · rcases na b hb with rfl | rfl <;> simp
      · rw [leaf 3 .elwDS (by rw [hT]; rfl) (by simp)] at hb; simp at hb
      · rw [leaf 4 .elwSD (by rw [hT]; rfl) (by simp)] at hb; simp at hb
      · rw [leaf 5 .elwDD (by rw [hT]; rfl) (by simp)] at hb; simp at hb)]
    rw [d1Idx, if_pos (by simp), d1Idx]
    simp
  have hfin : ((d1Idx es [] (List.range (R ++ T).length)).reverse.map fun i => (R ++ T)[i]?) = (arithTable ps).map some := by
    rw [ho, List.map_reverse]
    simp only [List.map_cons, List.map_append, List.map_nil, map_get_left, map_get_right]
    rw [show R.length = R.length + 0 from rfl, map_get_right]
    subst hT
    simp only [List.getElem?_cons_succ, List.getElem?_cons_zero]
    simp [arithTable, hR]
  unfold opInsert
  rw [if_pos (by simp), filterMap_some, e, hfin]
  rfl

end Dynd
