/-
Descriptions of arrays (C106): `format_datashape` writes a type description that is read back as the type of the array,
with strings of fixed size shown as strings and with the sizes of the var dimensions that are visible.
-/
import Verif.Model.Format
import Verif.Props.DatashapeProps

namespace Dynd

/-! ### Specification -/

/-- `v` is the data of an array of type `t`. -/
inductive Instance : Ty → DVal → Prop
  | fixed {n : Int} {el : Ty} {es : List DVal} : (es.length : Int) = n → (∀ e ∈ es, Instance el e) →
      Instance (.fixedDim n el) (.fixed es)
  | varNull {el : Ty} : Instance (.varDim el) (.var none)
  | var {el : Ty} {es : List DVal} : es.length < 2 ^ 63 → (∀ e ∈ es, Instance el e) → Instance (.varDim el) (.var (some es))
  | record {ns : List String} {ts : List Ty} {v : Bool} {fs : List DVal} : ts.length = fs.length →
      (∀ (i : Nat) t f, ts[i]? = some t → fs[i]? = some f → Instance t f) → Instance (.struct ns ts v) (.record fs)
  | scalar {t : Ty} : (∀ n el, t ≠ .fixedDim n el) → (∀ el, t ≠ .varDim el) → (∀ ns ts v, t ≠ .struct ns ts v) →
      Instance t .leaf

/-- The data `v` fits the description `u`: dimensions of a stated size have that many elements (also when they are stored
    as var dimensions), and so on for all elements and fields. -/
inductive Fits : Ty → DVal → Prop
  | fixed {n : Int} {el : Ty} {es : List DVal} : (es.length : Int) = n → (∀ e ∈ es, Fits el e) →
      Fits (.fixedDim n el) (.fixed es)
  | varFixed {n : Int} {el : Ty} {es : List DVal} : (es.length : Int) = n → (∀ e ∈ es, Fits el e) →
      Fits (.fixedDim n el) (.var (some es))
  | varNull {el : Ty} : Fits (.varDim el) (.var none)
  | var {el : Ty} {es : List DVal} : (∀ e ∈ es, Fits el e) → Fits (.varDim el) (.var (some es))
  | record {ns : List String} {ts : List Ty} {v : Bool} {fs : List DVal} : ts.length = fs.length →
      (∀ (i : Nat) t f, ts[i]? = some t → fs[i]? = some f → Fits t f) → Fits (.struct ns ts v) (.record fs)
  | scalar {t : Ty} : (∀ n el, t ≠ .fixedDim n el) → (∀ el, t ≠ .varDim el) → (∀ ns ts v, t ≠ .struct ns ts v) →
      Fits t .leaf

/-- `u` is `t` with fixed-size strings shown as strings and some var dimensions shown with a size. -/
inductive Sharpens : Ty → Ty → Prop
  | same (t : Ty) : Sharpens t t
  | str (n e : Nat) : Sharpens (.leaf (.fixedString n e)) (.leaf .string)
  | fixed {n : Int} {a b : Ty} : Sharpens a b → Sharpens (.fixedDim n a) (.fixedDim n b)
  | var {a b : Ty} : Sharpens a b → Sharpens (.varDim a) (.varDim b)
  | varFixed {n : Int} {a b : Ty} : Sharpens a b → Sharpens (.varDim a) (.fixedDim n b)
  | struct {ns : List String} {as bs : List Ty} {v : Bool} : as.length = bs.length →
      (∀ (i : Nat) a b, as[i]? = some a → bs[i]? = some b → Sharpens a b) → Sharpens (.struct ns as v) (.struct ns bs v)

mutual
/-- What is shown of a type: fixed-size strings as strings; a var dimension with its size when the data reaches it
    through structs and dimensions with one element only. -/
def shown : Ty → Option DVal → Ty
  | .struct ns ts v, some (.record fs) => .struct ns (shownAll ts (some fs)) v
  | .struct ns ts v, _ => .struct ns (shownAll ts none) v
  | .fixedDim n el, some (.fixed [v]) => .fixedDim n (shown el (some v))
  | .fixedDim n el, _ => .fixedDim n (shown el none)
  | .varDim el, some (.var (some [v])) => .fixedDim 1 (shown el (some v))
  | .varDim el, some (.var (some es)) => .fixedDim es.length (shown el none)
  | .varDim el, _ => .varDim (shown el none)
  | .leaf (.fixedString _ _), _ => .leaf .string
  | t, _ => t
/-- field by field -/
def shownAll : List Ty → Option (List DVal) → List Ty
  | [], _ => []
  | t :: ts, some (v :: vs) => shown t (some v) :: shownAll ts (some vs)
  | t :: ts, _ => shown t none :: shownAll ts none
end

mutual
/-- The types whose description is right: struct fields with plain names, no `...` in structs, no symbolic type below a
    dimension of fixed size; for the types the formatter hands to the printer, those the printer describes. -/
def Formattable : Ty → Prop
  | .struct ns ts v => v = false ∧ ns.length = ts.length ∧ FormattableAll ts ∧ ∀ nm ∈ ns, Identifier nm
  | .fixedDim n el => 0 ≤ n ∧ n < 2 ^ 63 ∧ el.symbolic = false ∧ Formattable el
  | .varDim el => Formattable el
  | .leaf (.fixedString _ _) => True
  | t => Describable t
/-- every type of the list -/
def FormattableAll : List Ty → Prop
  | [] => True
  | t :: ts => Formattable t ∧ FormattableAll ts
end

/-! ### The multiline struct is read back -/

theorem skipWs_ws {p : List Nat} (hp : ∀ c ∈ p, isSpace c = true) (s : List Nat) : skipWs (p ++ s) = skipWs s := by
  induction p with
  | nil => rfl
  | cons c p ih =>
    have h1 := hp c (by simp)
    have : skipWs (c :: (p ++ s)) = skipWs (p ++ s) := by simp [skipWs, skipWsGo, h1]
    rw [List.cons_append, this]; exact ih (fun d hd => hp d (by simp [hd]))

theorem tok_ws {p : List Nat} (hp : ∀ c ∈ p, isSpace c = true) (t s : List Nat) : tok t (p ++ s) = tok t s := by
  simp only [tok, skipWs_ws hp]

theorem item_ws {p : List Nat} (hp : ∀ c ∈ p, isSpace c = true) (rec : List Nat → PRes) (q : Bool) (s : List Nat) :
    dsItem rec q (p ++ s) = dsItem rec q s := by
  simp only [dsItem, skipWs_ws hp]

/-- The lines of the fields. -/
def mlLines (p : List Nat) (zs : List (List Nat)) : List Nat := zs.flatMap fun z => p ++ (z ++ [44, 10])

theorem mlFields {p ind : List Nat} (hp : ∀ c ∈ p, isSpace c = true) (hi : ∀ c ∈ ind, isSpace c = true)
    {es : List (String × Ty)} {zs : List (List Nat)} (h : List.Forall₂ (DsFT true) es zs) :
    ∀ (w : List Nat) (f k : Nat) (rest : List Nat), (∀ c ∈ w, isSpace c = true) → zs ≠ [] → (∀ z ∈ zs, z.length ≤ f) → zs.length ≤ k →
    dsFields (parseTy f) true [125] k (w ++ (mlLines p zs ++ (ind ++ 125 :: rest))) = .ok (es, false, rest) := by
  induction h with
  | nil => intro w f k rest _ h0; exact absurd rfl h0
  | @cons e z es zs h1 h2 ih =>
    intro w f k rest hw _ hf hk
    cases k with
    | zero => simp at hk
    | succ k =>
      have e1 : mlLines p (z :: zs) ++ (ind ++ 125 :: rest) = p ++ (z ++ 44 :: ([10] ++ (mlLines p zs ++ (ind ++ 125 :: rest)))) := by
        simp [mlLines]
      have h10 : ∀ c ∈ [10], isSpace c = true := by intro c hc; simp at hc; subst hc; rfl
      rw [e1, dsFields]
      simp only [s_dots, s_comma, tok_ws hw, tok_ws hp, ft_dots h1, item_ws hw, item_ws hp,
        h1.parse f (44 :: ([10] ++ (mlLines p zs ++ (ind ++ 125 :: rest)))) (hf z (by simp)) (follow_comma _), Res.bind_ok,
        tok1 (a := 44) _ rfl (by decide), tok_ws h10]
      cases h2 with
      | nil =>
        have e2 : tok [125] (mlLines p [] ++ (ind ++ 125 :: rest)) = some rest := by
          show tok [125] (ind ++ 125 :: rest) = some rest
          rw [tok_ws hi, tok1 (a := 125) _ rfl (by decide)]
        simp only [e2]; rfl
      | @cons e' z' es' zs' h3 h4 =>
        have e2 : tok [125] (mlLines p (z' :: zs') ++ (ind ++ 125 :: rest)) = none := by
          have e3 : mlLines p (z' :: zs') ++ (ind ++ 125 :: rest) = p ++ (z' ++ 44 :: ([10] ++ (mlLines p zs' ++ (ind ++ 125 :: rest)))) := by
            simp [mlLines]
          rw [e3, tok_ws hp]
          obtain ⟨c, r, rfl, g1, g2, _, g4, _⟩ := h3.hd
          exact tok_miss g1 g2 (Ne.symm g4)
        simp only [e2, ih [10] f k rest h10 (by simp) (fun y hy => hf y (by simp [hy])) (by simp at hk ⊢; omega), Res.bind_ok]
        rfl

theorem mlStruct {p ind : List Nat} (hp : ∀ c ∈ p, isSpace c = true) (hi : ∀ c ∈ ind, isSpace c = true)
    {es : List (String × Ty)} {zs : List (List Nat)} (h : List.Forall₂ (DsFT true) es zs) :
    DsNT (mkStruct es false) (123 :: 10 :: (mlLines p zs ++ (ind ++ [125]))) := by
  refine ⟨(open_hd (Or.inr rfl) _).1, fun rest _ => (open_hd (Or.inr rfl) _).2 rest, ?_⟩
  intro f rest hf hr
  have h10 : ∀ c ∈ [10], isSpace c = true := by intro c hc; simp at hc; subst hc; rfl
  have e0 : 123 :: 10 :: (mlLines p zs ++ (ind ++ [125])) ++ rest = 123 :: ([10] ++ (mlLines p zs ++ (ind ++ 125 :: rest))) := by simp
  rw [e0, noOpt_open (Or.inr rfl), structOrTuple]
  cases h with
  | nil =>
    have e2 : tok [125] ([10] ++ (mlLines p [] ++ (ind ++ 125 :: rest))) = some rest := by
      rw [tok_ws h10]
      show tok [125] (ind ++ 125 :: rest) = some rest
      rw [tok_ws hi, tok1 (a := 125) _ rfl (by decide)]
    simp only [parseStruct, s_lc, s_rc, tok1 (a := 123) _ rfl (by decide), e2, Res.bind_ok]
    rfl
  | @cons e z es zs h1 h2 =>
    have e2 : tok [125] ([10] ++ (mlLines p (z :: zs) ++ (ind ++ 125 :: rest))) = none := by
      have e3 : mlLines p (z :: zs) ++ (ind ++ 125 :: rest) = p ++ (z ++ 44 :: ([10] ++ (mlLines p zs ++ (ind ++ 125 :: rest)))) := by
        simp [mlLines]
      rw [tok_ws h10, e3, tok_ws hp]
      obtain ⟨c, r, rfl, g1, g2, _, g4, _⟩ := h1.hd
      exact tok_miss g1 g2 (Ne.symm g4)
    have hlen : ∀ ys : List (List Nat), ys.length ≤ (mlLines p ys).length ∧ ∀ y ∈ ys, y.length ≤ (mlLines p ys).length := by
      intro ys
      induction ys with
      | nil => simp [mlLines]
      | cons y ys ih =>
        have e4 : (mlLines p (y :: ys)).length = p.length + y.length + 2 + (mlLines p ys).length := by
          simp [mlLines]; omega
        refine ⟨by simp [e4]; omega, ?_⟩
        intro x hx
        rcases List.mem_cons.1 hx with rfl | hx
        · omega
        · have := ih.2 x hx; omega
    obtain ⟨l1, l2⟩ := hlen (z :: zs)
    have hall := mlFields hp hi (.cons h1 h2) [10] f
      (([10] ++ (mlLines p (z :: zs) ++ (ind ++ 125 :: rest))).length + 1) rest h10 (by simp) (by
        intro y hy
        have := l2 y hy
        simp only [List.length_cons, List.length_append] at hf
        omega) (by simp only [List.length_append]; simp at l1 ⊢; omega)
    simp only [parseStruct, s_lc, s_rc, tok1 (a := 123) _ rfl (by decide), e2, hall, Res.bind_ok, Res.pure_eq]

/-! ### Every description is read back -/

theorem shownAll_length : ∀ (ts : List Ty) (fs : Option (List DVal)), (shownAll ts fs).length = ts.length
  | [], _ => by simp [shownAll]
  | t :: ts, none => by simp [shownAll, shownAll_length ts none]
  | t :: ts, some [] => by simp [shownAll, shownAll_length ts none]
  | t :: ts, some (v :: vs) => by simp [shownAll, shownAll_length ts (some vs)]

theorem shown_fixed_ne {n : Int} {el : Ty} {d : Option DVal} (h : ∀ v, d ≠ some (.fixed [v])) :
    shown (.fixedDim n el) d = .fixedDim n (shown el none) := by
  rcases d with _ | v
  · simp [shown]
  · cases v with
    | fixed es =>
      match es with
      | [] => simp [shown]
      | [v] => exact absurd rfl (h v)
      | _ :: _ :: _ => simp [shown]
    | leaf => simp [shown]
    | record fs => simp [shown]
    | var es => simp [shown]

mutual
theorem fmt_ok : ∀ (t : Ty), Formattable t → ∀ (ml : Bool) (ind : List Nat) (am : Bool) (d : Option DVal),
    (∀ c ∈ ind, isSpace c = true) → (ml = false → ind = []) → (∀ v, d = some v → Instance t v) →
    ∃ x, fmtTy ml ind t am d = .ok x ∧ DsRT (shown t (if am then d else none)) x
  | .struct ns ts v, h, ml, ind, am, d, hi, hm, hd => by
    simp only [Formattable] at h
    obtain ⟨rfl, hl, hts, hns⟩ := h
    have hfs : ∃ fs : Option (List DVal),
        (match if am then d else none with
          | none => Res.ok none
          | some (.record fs) => Res.ok (some fs)
          | some _ => Res.ub) = Res.ok fs ∧
        (∀ vs, fs = some vs → ts.length = vs.length ∧
          ∀ (i : Nat) t f, ts[i]? = some t → vs[i]? = some f → Instance t f) ∧ (am = false → fs = none) ∧
        shown (.struct ns ts false) (if am then d else none) = .struct ns (shownAll ts fs) false := by
      cases am with
      | false => exact ⟨none, rfl, by simp, by simp, by simp [shown]⟩
      | true =>
        cases d with
        | none => exact ⟨none, rfl, by simp, by simp, by simp [shown]⟩
        | some w =>
          have hw := hd w rfl
          cases hw with
          | record h1 h2 => exact ⟨some _, rfl, by rintro vs ⟨⟩; exact ⟨h1, h2⟩, by simp, by simp [shown]⟩
          | scalar _ _ h3 => exact absurd rfl (h3 _ _ _)
    obtain ⟨fs, e1, h1, h2, e2⟩ := hfs
    obtain ⟨zs, hz, hx⟩ := fmtFields_ok ts hts ml ind ns hl am fs hi hm h1 h2 hns
    have hlen : ns.length = (shownAll ts fs).length := by rw [shownAll_length, hl]
    rw [e2]
    refine ⟨(if ml then str "{\n" else str "{") ++ (if ml then mlLines (ind ++ [32, 32]) zs else joinC zs) ++ ind ++ str "}", ?_, ?_⟩
    · rw [fmtTy]
      refine Eq.trans (congrArg (fun r => Res.bind r _) e1) ?_
      simp only [Res.bind, hx, Res.bind_ok, Res.pure_eq]
    · cases ml with
      | true =>
        have := mlStruct (p := ind ++ [32, 32]) (ind := ind) (by
          intro c hc
          rcases List.mem_append.1 hc with hc | hc
          · exact hi c hc
          · simp at hc; subst hc; rfl) hi hz
        rw [zip_struct hlen] at this
        have e3 : (if true then str "{\n" else str "{") ++ (if true then mlLines (ind ++ [32, 32]) zs else joinC zs) ++ ind ++ str "}"
            = 123 :: 10 :: (mlLines (ind ++ [32, 32]) zs ++ (ind ++ [125])) := by
          have : str "{\n" = [123, 10] := rfl
          simp [this, s_rc]
        rw [e3]; exact this.rt
      | false =>
        obtain rfl := hm rfl
        have := DsNT.struct (v := false) hz (fun _ => rfl)
        rw [zip_struct hlen] at this
        have e3 : (if false then str "{\n" else str "{") ++ (if false then mlLines ([] ++ [32, 32]) zs else joinC zs) ++ [] ++ str "}"
            = 123 :: (joinC zs ++ (if false then [44, 32, 46, 46, 46, 125] else [125])) := by
          simp [s_lc, s_rc]
        rw [e3]; exact this.rt
  | .fixedDim n el, h, ml, ind, am, d, hi, hm, hd => by
    simp only [Formattable] at h
    obtain ⟨h0, h1, hs, hel⟩ := h
    -- the data handed to the element
    have hc : ∃ c : Option DVal,
        (match if n = 1 then d else none with
          | none => Res.ok none
          | some (.fixed (v :: _)) => Res.ok (some v)
          | some _ => Res.ub) = Res.ok c ∧ (∀ v, c = some v → Instance el v) ∧
        shown (.fixedDim n el) (if am then d else none) = .fixedDim n (shown el (if am then c else none)) := by
      by_cases hn : n = 1
      · rw [if_pos hn]
        cases d with
        | none => exact ⟨none, rfl, by simp, by cases am <;> simp [shown]⟩
        | some w =>
          have hw := hd w rfl
          cases hw with
          | @fixed _ _ es g1 g2 =>
            match es, g1, g2 with
            | [v], g1, g2 => exact ⟨some v, rfl, by rintro _ ⟨⟩; exact g2 v (by simp), by cases am <;> simp [shown]⟩
            | [], g1, _ => simp at g1; omega
            | _ :: _ :: _, g1, _ => simp at g1; omega
          | scalar g _ _ => exact absurd rfl (g _ _)
      · rw [if_neg hn]
        refine ⟨none, rfl, by simp, ?_⟩
        have : (if am then (none : Option DVal) else none) = none := by cases am <;> rfl
        rw [this]
        refine shown_fixed_ne ?_
        intro v hv
        have hd2 : d = some (.fixed [v]) := by cases am <;> simp_all
        have := hd _ hd2
        cases this with
        | fixed g1 _ => simp at g1; omega
    obtain ⟨c, e1, g1, e2⟩ := hc
    obtain ⟨x, hx, hr⟩ := fmt_ok el hel ml ind am c hi hm g1
    rw [e2]
    refine ⟨printInt n ++ str " * " ++ x, ?_, (DsNT.fixedDim h0 h1 hr).rt⟩
    rw [fmtTy, if_neg (by simp [hs])]
    refine Eq.trans (congrArg (fun r => Res.bind r _) e1) ?_
    simp only [Res.bind, hx, Res.bind_ok, Res.pure_eq]
  | .varDim el, h, ml, ind, am, d, hi, hm, hd => by
    simp only [Formattable] at h
    by_cases hnull : (if am then d else none) = none
    · obtain ⟨x, hx, hr⟩ := fmt_ok el h ml ind am none hi hm (by simp)
      have : (if am then (none : Option DVal) else none) = none := by cases am <;> rfl
      rw [this] at hr
      refine ⟨str "var * " ++ x, ?_, ?_⟩
      · rw [fmtTy, hnull]; simp only [hx, Res.bind_ok, Res.pure_eq]
      · rw [hnull]
        have e : shown (.varDim el) none = .varDim (shown el none) := by simp [shown]
        rw [e]; exact (DsNT.varDim hr).rt
    · cases am with
      | false => exact absurd rfl hnull
      | true =>
        cases d with
        | none => exact absurd rfl hnull
        | some w =>
          have hw := hd w rfl
          cases hw with
          | varNull =>
            obtain ⟨x, hx, hr⟩ := fmt_ok el h ml ind true none hi hm (by simp)
            refine ⟨str "var * " ++ x, by rw [fmtTy]; simp only [if_true, hx, Res.bind_ok, Res.pure_eq], ?_⟩
            have e : shown (.varDim el) (if true then some (.var none) else none) = .varDim (shown el none) := by simp [shown]
            rw [e]; exact (DsNT.varDim hr).rt
          | @var _ es g1 g2 =>
            match es, g1, g2 with
            | [v], g1, g2 =>
              obtain ⟨x, hx, hr⟩ := fmt_ok el h ml ind true (some v) hi hm (by rintro _ ⟨⟩; exact g2 v (by simp))
              refine ⟨printInt 1 ++ str " * " ++ x, ?_, ?_⟩
              · rw [fmtTy]; simp only [if_true, List.length_singleton, List.head?_cons, hx, Res.bind_ok, Res.pure_eq]; rfl
              · have e : shown (.varDim el) (if true then some (.var (some [v])) else none) = .fixedDim 1 (shown el (some v)) := by
                  simp [shown]
                rw [e]; exact (DsNT.fixedDim (by decide) (by decide) hr).rt
            | [], g1, g2 =>
              obtain ⟨x, hx, hr⟩ := fmt_ok el h ml ind true none hi hm (by simp)
              refine ⟨printInt 0 ++ str " * " ++ x, ?_, ?_⟩
              · rw [fmtTy]; simp only [if_true, List.length_nil, Nat.zero_ne_one, if_false, hx, Res.bind_ok, Res.pure_eq]; rfl
              · have e : shown (.varDim el) (if true then some (.var (some [])) else none) = .fixedDim 0 (shown el none) := by
                  simp [shown]
                rw [e]; exact (DsNT.fixedDim (by decide) (by decide) hr).rt
            | a :: b :: r, g1, g2 =>
              obtain ⟨x, hx, hr⟩ := fmt_ok el h ml ind true none hi hm (by simp)
              refine ⟨printInt ((a :: b :: r).length : Nat) ++ str " * " ++ x, ?_, ?_⟩
              · rw [fmtTy]
                have hne : (a :: b :: r).length ≠ 1 := by simp
                simp only [if_true, hne, if_false, hx, Res.bind_ok, Res.pure_eq]
              · have e : shown (.varDim el) (if true then some (.var (some (a :: b :: r))) else none)
                    = .fixedDim ((a :: b :: r).length : Nat) (shown el none) := by
                  simp [shown]
                rw [e]; exact (DsNT.fixedDim (by omega) (by exact_mod_cast g1) hr).rt
          | scalar _ g _ => exact absurd rfl (g _)
  | .leaf (.fixedString n e), _, ml, ind, am, d, _, _, _ => by
    refine ⟨str "string", by simp [fmtTy], ?_⟩
    have : shown (.leaf (.fixedString n e)) (if am then d else none) = .leaf .string := by simp [shown]
    rw [this]
    obtain ⟨x, h1, h2⟩ := DsNT.leaf (l := .string) (by simp [Describable])
    obtain rfl := Res.ok.inj h1
    exact h2.rt
  | .leaf .string, h, ml, ind, am, d, _, _, _ => fmt_default (by simpa [Formattable] using h) (by simp [fmtTy, printTy, leafText]) (by simp [shown])
  | .leaf (.bytes a), h, ml, ind, am, d, _, _, _ => fmt_default (by simpa only [Formattable] using h) (by simp [fmtTy]) (by simp [shown])
  | .leaf (.fixedBytes a b), h, ml, ind, am, d, _, _, _ => fmt_default (by simpa only [Formattable] using h) (by simp [fmtTy]) (by simp [shown])
  | .leaf (.char a), h, ml, ind, am, d, _, _, _ => fmt_default (by simpa only [Formattable] using h) (by simp [fmtTy]) (by simp [shown])
  | .leaf .typeT, h, ml, ind, am, d, _, _, _ => fmt_default (by simpa only [Formattable] using h) (by simp [fmtTy]) (by simp [shown])
  | .leaf (.categorical a), h, ml, ind, am, d, _, _, _ => fmt_default (by simpa only [Formattable] using h) (by simp [fmtTy]) (by simp [shown])
  | .prim b, h, ml, ind, am, d, _, _, _ => fmt_default (by simpa only [Formattable] using h) (by simp [fmtTy]) (by simp [shown])
  | .kind b, h, ml, ind, am, d, _, _, _ => fmt_default (by simpa only [Formattable] using h) (by simp [fmtTy]) (by simp [shown])
  | .fixedDimKind b, h, ml, ind, am, d, _, _, _ => fmt_default (by simpa only [Formattable] using h) (by simp [fmtTy]) (by simp [shown])
  | .dimKind b, h, ml, ind, am, d, _, _, _ => fmt_default (by simpa only [Formattable] using h) (by simp [fmtTy]) (by simp [shown])
  | .pointer b, h, ml, ind, am, d, _, _, _ => fmt_default (by simpa only [Formattable] using h) (by simp [fmtTy]) (by simp [shown])
  | .option b, h, ml, ind, am, d, _, _, _ => fmt_default (by simpa only [Formattable] using h) (by simp [fmtTy]) (by simp [shown])
  | .tuple b v, h, ml, ind, am, d, _, _, _ => fmt_default (by simpa only [Formattable] using h) (by simp [fmtTy]) (by simp [shown])
  | .callable a b v, h, ml, ind, am, d, _, _, _ => fmt_default (by simpa only [Formattable] using h) (by simp [fmtTy]) (by simp [shown])
  | .typevar b, h, ml, ind, am, d, _, _, _ => fmt_default (by simpa only [Formattable] using h) (by simp [fmtTy]) (by simp [shown])
  | .typevarDim b v, h, ml, ind, am, d, _, _, _ => fmt_default (by simpa only [Formattable] using h) (by simp [fmtTy]) (by simp [shown])
  | .ellipsis b v, h, ml, ind, am, d, _, _, _ => fmt_default (by simpa only [Formattable] using h) (by simp [fmtTy]) (by simp [shown])
  | .powDimsym a b v, h, ml, ind, am, d, _, _, _ => fmt_default (by simpa only [Formattable] using h) (by simp [fmtTy]) (by simp [shown])
  | .dimFragment b, h, ml, ind, am, d, _, _, _ => fmt_default (by simpa only [Formattable] using h) (by simp [fmtTy]) (by simp [shown])
theorem fmtFields_ok : ∀ (ts : List Ty), FormattableAll ts → ∀ (ml : Bool) (ind : List Nat) (ns : List String), ns.length = ts.length →
    ∀ (am : Bool) (fs : Option (List DVal)), (∀ c ∈ ind, isSpace c = true) → (ml = false → ind = []) →
    (∀ vs, fs = some vs → ts.length = vs.length ∧ ∀ (i : Nat) t f, ts[i]? = some t → vs[i]? = some f → Instance t f) →
    (am = false → fs = none) → (∀ nm ∈ ns, Identifier nm) →
    ∃ zs, List.Forall₂ (DsFT true) (ns.zip (shownAll ts fs)) zs ∧
      fmtFields ml ind ns ts am fs = .ok (if ml then mlLines (ind ++ [32, 32]) zs else joinC zs)
  | [], _, ml, ind, ns, hl, am, fs, hi, hm, hfs, ham, hns => by
    obtain rfl := List.length_eq_zero_iff.1 (by simpa using hl : ns.length = 0)
    refine ⟨[], by simp [shownAll], ?_⟩
    rw [fmtFields]; cases ml <;> rfl
  | t :: ts, h, ml, ind, [], hl, am, fs, hi, hm, hfs, ham, hns => by simp at hl
  | t :: ts, h, ml, ind, nm :: nms, hl, am, fs, hi, hm, hfs, ham, hns => by
    simp only [FormattableAll] at h
    have hsplit : ∃ (d : Option DVal) (fs' : Option (List DVal)),
        (match (generalizing := false) fs with
          | none => Res.ok (none, none)
          | some (v :: vs) => Res.ok (some v, some vs)
          | some [] => Res.ub) = Res.ok (d, fs') ∧ (∀ v, d = some v → Instance t v) ∧
        (∀ vs, fs' = some vs → ts.length = vs.length ∧ ∀ (i : Nat) t f, ts[i]? = some t → vs[i]? = some f → Instance t f) ∧
        (am = false → d = none ∧ fs' = none) ∧ shownAll (t :: ts) fs = shown t d :: shownAll ts fs' := by
      match fs, hfs, ham with
      | none, _, _ => exact ⟨none, none, rfl, by simp, by simp, by simp, by simp [shownAll]⟩
      | some [], hfs, _ => exact absurd (hfs [] rfl).1 (by simp)
      | some (v :: vs), hfs, ham =>
        obtain ⟨g1, g2⟩ := hfs _ rfl
        refine ⟨some v, some vs, rfl, ?_, ?_, ?_, by simp [shownAll]⟩
        · rintro _ ⟨⟩; exact g2 0 t v rfl rfl
        · rintro _ ⟨⟩
          refine ⟨by simpa using g1, fun i a b ha hb => g2 (i + 1) a b (by simpa using ha) (by simpa using hb)⟩
        · intro e; exact absurd (ham e) (by simp)
    obtain ⟨d, fs', e1, hd, hfs', ham', e2⟩ := hsplit
    obtain ⟨x, hx, hr⟩ := fmt_ok t h.1 ml (if ml then ind ++ str "  " else ind) am d (by
      intro c hc
      cases ml with
      | false => exact hi c hc
      | true =>
        rcases List.mem_append.1 hc with hc | hc
        · exact hi c hc
        · have : str "  " = [32, 32] := rfl
          rw [this] at hc; simp at hc; subst hc; rfl) (by intro e; rw [e]; exact hm e) hd
    have hdd : (if am then d else none) = d := by
      cases am with
      | true => rfl
      | false => exact ((ham' rfl).1).symm
    rw [hdd] at hr
    obtain ⟨zs, hz, hrest⟩ := fmtFields_ok ts h.2 ml ind nms (by simpa using hl) am fs' hi hm hfs' (fun e => (ham' e).2)
      (fun n hn => hns n (by simp [hn]))
    have hft := DsFT.bare (q := true) (identifier_iff.1 (hns nm (by simp))) hr
    refine ⟨(str nm ++ 58 :: 32 :: x) :: zs, by rw [e2, List.zip_cons_cons]; exact .cons hft hz, ?_⟩
    rw [fmtFields.eq_def]
    refine Eq.trans (congrArg (fun r => Res.bind r _) e1) ?_
    simp only [Res.bind, hx, Res.bind_ok, hrest, Res.pure_eq]
    cases ml with
    | true =>
      have h1 : str ",\n" = [44, 10] := rfl
      have h2 : str "  " = [32, 32] := rfl
      simp [mlLines, h1, h2, s_colonsp]
    | false =>
      obtain rfl := hm rfl
      cases ts with
      | nil =>
        cases hz' : zs with
        | nil => simp [joinC, s_colonsp]
        | cons z zs =>
          rw [hz'] at hz
          have := hz.length_eq
          simp [shownAll] at this
      | cons t2 ts2 =>
        cases hz' : zs with
        | nil =>
          rw [hz'] at hz
          have := hz.length_eq
          simp [List.length_zip, shownAll_length] at this
          simp at hl; simp [this] at hl
        | cons z zs => simp [joinC, s_colonsp, s_commasp]
theorem fmt_default {ml : Bool} {ind : List Nat} {t : Ty} {am : Bool} {d : Option DVal} (h : Describable t)
    (h1 : fmtTy ml ind t am d = printTy t) (h2 : shown t (if am then d else none) = t) :
    ∃ x, fmtTy ml ind t am d = .ok x ∧ DsRT (shown t (if am then d else none)) x := by
  obtain ⟨x, g1, g2, _⟩ := rt_ty t h
  exact ⟨x, by rw [h1, g1], by rw [h2]; exact g2⟩
end

/-! ### The headline theorems -/

theorem rt_top {t : Ty} {x : List Nat} (h2 : DsRT t x) (hx : x.head? ≠ some 116) : typeFromDatashape x = .ok t := by
  have hs : tok (str "type") x = none := by
    obtain ⟨c, r, rfl, g1, g2, _⟩ := h2.hd
    have hc : c ≠ 116 := by simpa using hx
    exact tok_miss g1 g2 (Ne.symm hc)
  have hp := h2.parse (x.length + 1) [] (by omega) (Or.inl rfl)
  rw [List.append_nil] at hp
  have e : parseStmt (x.length + 1) [] x = .ok (some (t, [], [])) := by
    rw [parseStmt, hs]
    simp only [hp, Res.bind_ok, Res.pure_eq]
  rw [typeFromDatashape, e, Res.bind_ok]
  simp only [parseTopLoop, parseStmt_nil, Res.bind_ok, skipWs_nil, Res.pure_eq]

theorem fmt_print {ml : Bool} {ind : List Nat} {t : Ty} {am : Bool} {d : Option DVal} (h1 : ∀ n el, t ≠ .fixedDim n el)
    (h2 : ∀ el, t ≠ .varDim el) (h3 : ∀ ns ts v, t ≠ .struct ns ts v) (h4 : ∀ n e, t ≠ .leaf (.fixedString n e)) :
    fmtTy ml ind t am d = printTy t ∧ (Formattable t → Describable t) ∧ shown t d = t := by
  cases t with
  | fixedDim n el => exact absurd rfl (h1 _ _)
  | varDim el => exact absurd rfl (h2 _)
  | struct ns ts v => exact absurd rfl (h3 _ _ _)
  | leaf l =>
    cases l with
    | fixedString n e => exact absurd rfl (h4 _ _)
    | string => exact ⟨by simp [fmtTy, printTy, leafText], fun _ => by simp [Describable], by simp [shown]⟩
    | _ => exact ⟨by simp [fmtTy], fun h => by simpa only [Formattable] using h, by simp [shown]⟩
  | _ => exact ⟨by simp [fmtTy], fun h => by simpa only [Formattable] using h, by simp [shown]⟩

/-- The first character of a description. -/
theorem fmt_head {ml : Bool} {ind : List Nat} {t : Ty} {am : Bool} {d : Option DVal} {x : List Nat} (h : Formattable t)
    (hne : t ≠ .leaf .typeT) (hx : fmtTy ml ind t am d = .ok x) : x.head? ≠ some 116 := by
  by_cases h1 : ∃ n el, t = .fixedDim n el
  · obtain ⟨n, el, rfl⟩ := h1
    simp only [Formattable] at h
    rw [fmtTy, if_neg (by simp [h.2.2.1]), Res.bind_eq_ok] at hx
    obtain ⟨c, _, hx⟩ := hx
    rw [Res.bind_eq_ok] at hx
    obtain ⟨e, _, hx⟩ := hx
    simp only [Res.pure_eq, Res.ok.injEq] at hx; subst hx
    rw [List.append_assoc]; exact num_head h.1 _
  by_cases h2 : ∃ el, t = .varDim el
  · obtain ⟨el, rfl⟩ := h2
    rw [fmtTy] at hx
    split at hx
    · rw [Res.bind_eq_ok] at hx
      obtain ⟨e, _, hx⟩ := hx
      simp only [Res.pure_eq, Res.ok.injEq] at hx; subst hx; simp [str]
    · rw [Res.bind_eq_ok] at hx
      obtain ⟨e, _, hx⟩ := hx
      simp only [Res.pure_eq, Res.ok.injEq] at hx; subst hx; simp [str]
    · rw [Res.bind_eq_ok] at hx
      obtain ⟨e, _, hx⟩ := hx
      simp only [Res.pure_eq, Res.ok.injEq] at hx; subst hx
      rw [List.append_assoc]; exact num_head (by omega) _
    · cases hx
  by_cases h3 : ∃ ns ts v, t = .struct ns ts v
  · obtain ⟨ns, ts, v, rfl⟩ := h3
    rw [fmtTy, Res.bind_eq_ok] at hx
    obtain ⟨c, _, hx⟩ := hx
    rw [Res.bind_eq_ok] at hx
    obtain ⟨e, _, hx⟩ := hx
    simp only [Res.pure_eq, Res.ok.injEq] at hx; subst hx
    cases ml <;> simp [str]
  by_cases h4 : ∃ n e, t = .leaf (.fixedString n e)
  · obtain ⟨n, e, rfl⟩ := h4
    simp only [fmtTy, Res.ok.injEq] at hx; subst hx; simp [str]
  obtain ⟨e1, e2, _⟩ := fmt_print (ml := ml) (ind := ind) (am := am) (d := d) (fun n el e => h1 ⟨n, el, e⟩)
    (fun el e => h2 ⟨el, e⟩) (fun ns ts v e => h3 ⟨ns, ts, v, e⟩) (fun n e e' => h4 ⟨n, e, e'⟩)
  rw [e1] at hx
  exact head_not_t (e2 h) hne hx

theorem format_top {ml : Bool} {t : Ty} {am : Bool} {d : Option DVal} (h : Formattable t)
    (hd : ∀ v, d = some v → Instance t v) :
    ∃ x, fmtTy ml [] t am d = .ok x ∧ typeFromDatashape x = .ok (shown t (if am then d else none)) := by
  obtain ⟨x, h1, h2⟩ := fmt_ok t h ml [] am d (by simp) (by simp) hd
  refine ⟨x, h1, ?_⟩
  by_cases ht : t = .leaf .typeT
  · subst ht
    simp only [fmtTy, printTy, leafText, Res.ok.injEq] at h1
    subst h1
    have : shown (.leaf .typeT) (if am then d else none) = .leaf .typeT := by simp [shown]
    rw [this]; rfl
  · exact rt_top h2 (fmt_head h ht h1)

/-- C106: the description of a type, on one line or on several, with any prefix in front, is read back as the type it
    was made from, with fixed-size strings shown as `string`.  Missing: the types outside `Formattable`; for the
    conditions marked there the claim is false, see the `_violated` theorems. -/
theorem format_type_exact_partial (t : Ty) (h : Formattable t) (ml : Bool) (pre : List Nat) :
    ∃ x, formatType pre ml t = .ok (pre ++ x) ∧ typeFromDatashape x = .ok (shown t none) := by
  obtain ⟨x, h1, h2⟩ := format_top (ml := ml) (am := false) (d := none) h (by simp)
  exact ⟨x, by simp only [formatType, h1, Res.bind_ok, Res.pure_eq], by simpa using h2⟩

/-- C106: the description of an array, on one line or on several, is read back as its type with the visible sizes. -/
theorem format_array_exact_partial (t : Ty) (h : Formattable t) (ml : Bool) (v : DVal) (hv : Instance t v) :
    ∃ x, formatArray ml t v = .ok x ∧ typeFromDatashape x = .ok (shown t (some v)) := by
  obtain ⟨x, h1, h2⟩ := format_top (ml := ml) (am := true) (d := some v) h (by rintro _ ⟨⟩; exact hv)
  exact ⟨x, h1, by simpa using h2⟩

/-! ### What is shown is true of the array -/

mutual
theorem shown_fits_go : ∀ (t : Ty) (v : DVal), Instance t v → ∀ (d : Option DVal), (d = none ∨ d = some v) → Fits (shown t d) v
  | .struct ns ts vr, v, h, d, hd => by
    cases h with
    | record h1 h2 =>
      rename_i fs
      have hsh : ∃ fs', (fs' = none ∨ fs' = some fs) ∧ shown (.struct ns ts vr) d = .struct ns (shownAll ts fs') vr := by
        rcases hd with rfl | rfl
        · exact ⟨none, Or.inl rfl, by simp [shown]⟩
        · exact ⟨some fs, Or.inr rfl, by simp [shown]⟩
      obtain ⟨fs', h3, e⟩ := hsh
      rw [e]
      refine .record (by rw [shownAll_length, h1]) ?_
      exact shownAll_fits_go ts fs h1 h2 fs' h3
    | scalar _ _ h => exact absurd rfl (h _ _ _)
  | .fixedDim n el, v, h, d, hd => by
    cases h with
    | fixed h1 h2 =>
      rename_i es
      by_cases hs : ∃ w, d = some (.fixed [w])
      · obtain ⟨w, rfl⟩ := hs
        rcases hd with hd | hd
        · exact absurd hd (by simp)
        · simp only [Option.some.injEq, DVal.fixed.injEq] at hd; subst hd
          have e : shown (.fixedDim n el) (some (.fixed [w])) = .fixedDim n (shown el (some w)) := by simp [shown]
          rw [e]
          refine .fixed h1 ?_
          intro x hx
          simp at hx; subst hx
          exact shown_fits_go el x (h2 x (by simp)) (some x) (Or.inr rfl)
      · rw [shown_fixed_ne (fun w e => hs ⟨w, e⟩)]
        exact .fixed h1 (fun x hx => shown_fits_go el x (h2 x hx) none (Or.inl rfl))
    | scalar h _ _ => exact absurd rfl (h _ _)
  | .varDim el, v, h, d, hd => by
    cases h with
    | varNull =>
      have e : shown (.varDim el) d = .varDim (shown el none) := by
        rcases hd with rfl | rfl <;> simp [shown]
      rw [e]; exact .varNull
    | @var _ es h1 h2 =>
      rcases hd with rfl | rfl
      · have e : shown (.varDim el) none = .varDim (shown el none) := by simp [shown]
        rw [e]; exact .var (fun x hx => shown_fits_go el x (h2 x hx) none (Or.inl rfl))
      · match es, h1, h2 with
        | [w], h1, h2 =>
          have e : shown (.varDim el) (some (.var (some [w]))) = .fixedDim 1 (shown el (some w)) := by simp [shown]
          rw [e]
          refine .varFixed rfl ?_
          intro x hx
          simp at hx; subst hx
          exact shown_fits_go el x (h2 x (by simp)) (some x) (Or.inr rfl)
        | [], h1, h2 =>
          have e : shown (.varDim el) (some (.var (some []))) = .fixedDim 0 (shown el none) := by simp [shown]
          rw [e]; exact .varFixed rfl (by simp)
        | a :: b :: r, h1, h2 =>
          have e : shown (.varDim el) (some (.var (some (a :: b :: r)))) = .fixedDim ((a :: b :: r).length : Nat) (shown el none) := by
            simp [shown]
          rw [e]; exact .varFixed rfl (fun x hx => shown_fits_go el x (h2 x hx) none (Or.inl rfl))
    | scalar _ h _ => exact absurd rfl (h _)
  | .leaf l, v, h, d, hd => by
    cases h with
    | scalar h1 h2 h3 =>
      cases l with
      | fixedString n e =>
        have : shown (.leaf (.fixedString n e)) d = .leaf .string := by simp [shown]
        rw [this]; exact .scalar (by simp) (by simp) (by simp)
      | string => simp only [shown]; exact .scalar (by simp) (by simp) (by simp)
      | bytes _ => simp only [shown]; exact .scalar (by simp) (by simp) (by simp)
      | fixedBytes _ _ => simp only [shown]; exact .scalar (by simp) (by simp) (by simp)
      | char _ => simp only [shown]; exact .scalar (by simp) (by simp) (by simp)
      | typeT => simp only [shown]; exact .scalar (by simp) (by simp) (by simp)
      | categorical _ => simp only [shown]; exact .scalar (by simp) (by simp) (by simp)
  | .prim b, v, h, d, _ => by cases h; simp only [shown]; exact .scalar (by simp) (by simp) (by simp)
  | .kind b, v, h, d, _ => by cases h; simp only [shown]; exact .scalar (by simp) (by simp) (by simp)
  | .fixedDimKind b, v, h, d, _ => by cases h; simp only [shown]; exact .scalar (by simp) (by simp) (by simp)
  | .dimKind b, v, h, d, _ => by cases h; simp only [shown]; exact .scalar (by simp) (by simp) (by simp)
  | .pointer b, v, h, d, _ => by cases h; simp only [shown]; exact .scalar (by simp) (by simp) (by simp)
  | .option b, v, h, d, _ => by cases h; simp only [shown]; exact .scalar (by simp) (by simp) (by simp)
  | .tuple b x, v, h, d, _ => by cases h; simp only [shown]; exact .scalar (by simp) (by simp) (by simp)
  | .callable a b c, v, h, d, _ => by cases h; simp only [shown]; exact .scalar (by simp) (by simp) (by simp)
  | .typevar b, v, h, d, _ => by cases h; simp only [shown]; exact .scalar (by simp) (by simp) (by simp)
  | .typevarDim b c, v, h, d, _ => by cases h; simp only [shown]; exact .scalar (by simp) (by simp) (by simp)
  | .ellipsis b c, v, h, d, _ => by cases h; simp only [shown]; exact .scalar (by simp) (by simp) (by simp)
  | .powDimsym a b c, v, h, d, _ => by cases h; simp only [shown]; exact .scalar (by simp) (by simp) (by simp)
  | .dimFragment b, v, h, d, _ => by cases h; simp only [shown]; exact .scalar (by simp) (by simp) (by simp)
theorem shownAll_fits_go : ∀ (ts : List Ty) (fs : List DVal), ts.length = fs.length →
    (∀ (i : Nat) t f, ts[i]? = some t → fs[i]? = some f → Instance t f) → ∀ (fs' : Option (List DVal)), (fs' = none ∨ fs' = some fs) →
    ∀ (i : Nat) t f, (shownAll ts fs')[i]? = some t → fs[i]? = some f → Fits t f
  | [], fs, hl, h, fs', hf, i, t, f, h1, h2 => by simp [shownAll] at h1
  | t :: ts, [], hl, h, fs', hf, i, u, f, h1, h2 => by simp at h2
  | t :: ts, v :: vs, hl, h, fs', hf, i, u, f, h1, h2 => by
    have hs : ∃ d ds, (d = none ∨ d = some v) ∧ (ds = none ∨ ds = some vs) ∧ shownAll (t :: ts) fs' = shown t d :: shownAll ts ds := by
      rcases hf with rfl | rfl
      · exact ⟨none, none, Or.inl rfl, Or.inl rfl, by simp [shownAll]⟩
      · exact ⟨some v, some vs, Or.inr rfl, Or.inr rfl, by simp [shownAll]⟩
    obtain ⟨d, ds, hd, hds, e⟩ := hs
    rw [e] at h1
    cases i with
    | zero =>
      simp only [List.getElem?_cons_zero, Option.some.injEq] at h1 h2
      subst h1; subst h2
      exact shown_fits_go t v (h 0 t v rfl rfl) d hd
    | succ i =>
      simp only [List.getElem?_cons_succ] at h1 h2
      exact shownAll_fits_go ts vs (by simpa using hl) (fun i a b ha hb => h (i + 1) a b (by simpa using ha) (by simpa using hb))
        ds hds i u f h1 h2
end

/-- C106: what is shown of an array is true of all its data: wherever a size is shown, each of the dimensions there has
    that size. -/
theorem shown_fits (t : Ty) (v : DVal) (h : Instance t v) : Fits (shown t (some v)) v := shown_fits_go t v h _ (Or.inr rfl)

mutual
/-- C106: nothing else than the strings and the sizes of var dimensions is changed in what is shown. -/
theorem shown_sharpens : ∀ (t : Ty) (d : Option DVal), Sharpens t (shown t d)
  | .struct ns ts vr, d => by
    have hsh : ∃ fs', shown (.struct ns ts vr) d = .struct ns (shownAll ts fs') vr := by
      rcases d with _ | (_ | fs | _ | _)
      · exact ⟨none, by simp [shown]⟩
      · exact ⟨none, by simp [shown]⟩
      · exact ⟨some fs, by simp [shown]⟩
      · exact ⟨none, by simp [shown]⟩
      · exact ⟨none, by simp [shown]⟩
    obtain ⟨fs', e⟩ := hsh
    rw [e]
    exact .struct (shownAll_length ts fs').symm (shownAll_sharpens ts fs')
  | .fixedDim n el, d => by
    by_cases hs : ∃ w, d = some (.fixed [w])
    · obtain ⟨w, rfl⟩ := hs
      have e : shown (.fixedDim n el) (some (.fixed [w])) = .fixedDim n (shown el (some w)) := by simp [shown]
      rw [e]; exact .fixed (shown_sharpens el _)
    · rw [shown_fixed_ne (fun w e => hs ⟨w, e⟩)]; exact .fixed (shown_sharpens el _)
  | .varDim el, d => by
    have hsh : ∃ c, shown (.varDim el) d = .varDim (shown el c) ∨ ∃ n, shown (.varDim el) d = .fixedDim n (shown el c) := by
      rcases d with _ | (_ | fs | _ | (_ | (_ | ⟨a, _ | ⟨b, r⟩⟩)))
      · exact ⟨none, Or.inl (by simp [shown])⟩
      · exact ⟨none, Or.inl (by simp [shown])⟩
      · exact ⟨none, Or.inl (by simp [shown])⟩
      · exact ⟨none, Or.inl (by simp [shown])⟩
      · exact ⟨none, Or.inl (by simp [shown])⟩
      · exact ⟨none, Or.inr ⟨0, by simp [shown]⟩⟩
      · exact ⟨some a, Or.inr ⟨1, by simp [shown]⟩⟩
      · exact ⟨none, Or.inr ⟨((a :: b :: r).length : Nat), by simp [shown]⟩⟩
    obtain ⟨c, e | ⟨n, e⟩⟩ := hsh
    · rw [e]; exact .var (shown_sharpens el c)
    · rw [e]; exact .varFixed (shown_sharpens el c)
  | .leaf l, d => by
    cases l with
    | fixedString n e =>
      have : shown (.leaf (.fixedString n e)) d = .leaf .string := by simp [shown]
      rw [this]; exact .str n e
    | _ => simp only [shown]; exact .same _
  | .prim b, d => by simp only [shown]; exact .same _
  | .kind b, d => by simp only [shown]; exact .same _
  | .fixedDimKind b, d => by simp only [shown]; exact .same _
  | .dimKind b, d => by simp only [shown]; exact .same _
  | .pointer b, d => by simp only [shown]; exact .same _
  | .option b, d => by simp only [shown]; exact .same _
  | .tuple b x, d => by simp only [shown]; exact .same _
  | .callable a b c, d => by simp only [shown]; exact .same _
  | .typevar b, d => by simp only [shown]; exact .same _
  | .typevarDim b c, d => by simp only [shown]; exact .same _
  | .ellipsis b c, d => by simp only [shown]; exact .same _
  | .powDimsym a b c, d => by simp only [shown]; exact .same _
  | .dimFragment b, d => by simp only [shown]; exact .same _
theorem shownAll_sharpens : ∀ (ts : List Ty) (fs : Option (List DVal)) (i : Nat) a b, ts[i]? = some a →
    (shownAll ts fs)[i]? = some b → Sharpens a b
  | [], fs, i, a, b, h1, h2 => by simp at h1
  | t :: ts, fs, i, a, b, h1, h2 => by
    have hs : ∃ d ds, shownAll (t :: ts) fs = shown t d :: shownAll ts ds := by
      rcases fs with _ | (_ | ⟨v, vs⟩)
      · exact ⟨none, none, by simp [shownAll]⟩
      · exact ⟨none, none, by simp [shownAll]⟩
      · exact ⟨some v, some vs, by simp [shownAll]⟩
    obtain ⟨d, ds, e⟩ := hs
    rw [e] at h2
    cases i with
    | zero =>
      simp only [List.getElem?_cons_zero, Option.some.injEq] at h1 h2
      subst h1; subst h2
      exact shown_sharpens t d
    | succ i =>
      simp only [List.getElem?_cons_succ] at h1 h2
      exact shownAll_sharpens ts ds i a b h1 h2
end

/-- C106: a var dimension at the front, or behind dimensions with one element, is shown with its size. -/
theorem shown_size (el : Ty) (es : List DVal) :
    (∃ u, shown (.varDim el) (some (.var (some es))) = .fixedDim (es.length : Nat) u) ∧
    (∀ v, ∃ u, shown (.fixedDim 1 (.varDim el)) (some (.fixed [v])) = .fixedDim 1 u ∧ u = shown (.varDim el) (some v)) := by
  refine ⟨?_, fun v => ⟨_, by simp [shown], rfl⟩⟩
  rcases es with _ | ⟨a, _ | ⟨b, r⟩⟩
  · exact ⟨shown el none, by simp [shown]⟩
  · exact ⟨shown el (some a), by simp [shown]⟩
  · exact ⟨shown el none, by simp [shown]⟩

/-! ### A case that meets the hypotheses, and the defects -/

/-- `{name: fixed_string[10], rows: 1 * var * var * int32}` -/
def fmtSample : Ty :=
  .struct ["name", "rows"] [.leaf (.fixedString 10 0), .fixedDim 1 (.varDim (.varDim (.prim (.int .w32))))] false

/-- an array of that type: two rows with one and no element -/
def fmtSampleVal : DVal := .record [.leaf, .fixed [.var (some [.var (some [.leaf]), .var (some [])])]]

theorem fmtSample_formattable : Formattable fmtSample := by
  simp only [fmtSample, Formattable, FormattableAll, Describable]
  refine ⟨trivial, rfl, ⟨trivial, ⟨by decide, by decide, rfl, trivial⟩, trivial⟩, ?_⟩
  intro nm hnm
  simp at hnm
  rcases hnm with rfl | rfl <;> exact identifier_iff.2 (by decide)

theorem fmtSample_instance : Instance fmtSample fmtSampleVal := by
  refine .record rfl ?_
  intro i t f ht hf
  rcases i with _ | _ | i
  · simp at ht hf; subst ht; subst hf; exact .scalar (by simp) (by simp) (by simp)
  · simp at ht hf; subst ht; subst hf
    refine .fixed rfl ?_
    intro e he; simp at he; subst he
    refine .var (by decide) ?_
    intro e he; simp at he
    rcases he with rfl | rfl
    · refine .var (by decide) ?_
      intro e he; simp at he; subst he; exact .scalar (by simp) (by simp) (by simp)
    · exact .var (by decide) (by simp)
  · simp at ht

/-- what is shown of it: `{name: string, rows: 1 * 2 * var * int32}`; the inner sizes differ and are not shown -/
example : formatArray false fmtSample fmtSampleVal = .ok (str "{name: string, rows: 1 * 2 * var * int32}") := by
  simp [formatArray, fmtSample, fmtSampleVal, fmtTy, fmtFields, Ty.symbolic, printTy]
  decide +kernel
example : formatArray true fmtSample fmtSampleVal
    = .ok (str "{\n  name: string,\n  rows: 1 * 2 * var * int32,\n}") := by
  simp [formatArray, fmtSample, fmtSampleVal, fmtTy, fmtFields, Ty.symbolic, printTy]
  decide +kernel
example : ∃ x, formatArray true fmtSample fmtSampleVal = .ok x ∧ typeFromDatashape x = .ok (shown fmtSample (some fmtSampleVal)) :=
  format_array_exact_partial _ fmtSample_formattable true _ fmtSample_instance
example : ¬ Fits (.fixedDim 2 (.prim (.int .w32))) (.var (some [.leaf])) := by
  intro h; cases h with | varFixed h _ => exact absurd h (by decide)

/-- Field names are written without quotes: a struct with one field named `a: int32, b` has the description of a struct
    with two fields, so the description does not tell the types apart. -/
theorem format_names_violated :
    formatType [] false (.struct ["a: int32, b"] [.prim (.int .w32)] false)
      = formatType [] false (.struct ["a", "b"] [.prim (.int .w32), .prim (.int .w32)] false) ∧
    ∃ x, formatType [] false (.struct ["a: int32, b"] [.prim (.int .w32)] false) = .ok x := by
  have : formatType [] false (.struct ["a: int32, b"] [.prim (.int .w32)] false) = .ok (str "{a: int32, b: int32}") := by
    simp [formatType, fmtTy, fmtFields, printTy]; decide
  refine ⟨?_, _, this⟩
  rw [this]
  simp [formatType, fmtTy, fmtFields, printTy]; decide

/-- The `...` of a struct that takes further fields is not written. -/
theorem format_variadic_violated (ns : List String) (ts : List Ty) (ml : Bool) (pre : List Nat) :
    formatType pre ml (.struct ns ts true) = formatType pre ml (.struct ns ts false) := by
  simp [formatType, fmtTy]

/-- The size of a dimension above a symbolic type is not written: `3 * T` is described as `Fixed * T`. -/
theorem format_symbolic_violated (n : Int) (T : String) (ml : Bool) :
    formatType [] ml (.fixedDim n (.typevar T)) = .ok (str "Fixed * " ++ str T) := by
  simp [formatType, fmtTy, printTy, Ty.symbolic]

end Dynd
