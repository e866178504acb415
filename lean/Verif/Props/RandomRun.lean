/-
C126: the run of the kernels that fill an array with random numbers.
-/
import Verif.Model.RandomFill
import Verif.Props.UnaryProps

namespace Dynd

/-! ### Specification -/

mutual
/-- the scalars of a nested value, in row-major order -/
def NestVal.scalars {α : Type} : NestVal α → List α
  | .elem x => [x]
  | .list xs => scalarsAll xs
/-- the scalars of a list of nested values -/
def scalarsAll {α : Type} : List (NestVal α) → List α
  | [] => []
  | x :: xs => x.scalars ++ scalarsAll xs
end

/-- The value has these dimensions, a `var` dimension one element. -/
def ShapedAs {α : Type} : List (Option Nat) → NestVal α → Prop
  | [], .elem _ => True
  | some n :: ds, .list xs => xs.length = n ∧ ∀ x ∈ xs, ShapedAs ds x
  | none :: ds, .list xs => xs.length = 1 ∧ ∀ x ∈ xs, ShapedAs ds x
  | _, _ => False

/-- a bound or an element is of the type -/
def OfType {F : Type} : BTy → RVal F → Prop
  | .int _, .int _ | .uint _, .int _ | .flt _, .real _ | .cplx _, .cplx _ _ => True
  | _, _ => False

/-- the real type a complex type consists of -/
def partOf : CW → FW
  | .c32 => .f32
  | .c64 => .f64

/-- These values are drawn one after the other, the generator going from the first state to the second: one draw of the
    distribution for a number, two for a complex number, in the order in which arguments are evaluated. -/
inductive Draws {F G : Type} (r : Rng F G) : BTy → RVal F → RVal F → List (RVal F) → G → G → Prop
  | none (T lo hi g) : Draws r T lo hi [] g g
  | int (w a b l g g') : Draws r (.int w) (.int a) (.int b) l (r.int (.int w) a b g).2 g' →
      Draws r (.int w) (.int a) (.int b) (.int (r.int (.int w) a b g).1 :: l) g g'
  | uint (w a b l g g') : Draws r (.uint w) (.int a) (.int b) l (r.int (.uint w) a b g).2 g' →
      Draws r (.uint w) (.int a) (.int b) (.int (r.int (.uint w) a b g).1 :: l) g g'
  | real (w a b l g g') : Draws r (.flt w) (.real a) (.real b) l (r.real w a b g).2 g' →
      Draws r (.flt w) (.real a) (.real b) (.real (r.real w a b g).1 :: l) g g'
  | cplx (w a a' b b' l g g₁ g₂ g' x y) : r.imagFirst = false → r.real (partOf w) a b g = (x, g₁) →
      r.real (partOf w) a' b' g₁ = (y, g₂) → Draws r (.cplx w) (.cplx a a') (.cplx b b') l g₂ g' →
      Draws r (.cplx w) (.cplx a a') (.cplx b b') (.cplx x y :: l) g g'
  | cplxRev (w a a' b b' l g g₁ g₂ g' x y) : r.imagFirst = true → r.real (partOf w) a' b' g = (y, g₁) →
      r.real (partOf w) a b g₁ = (x, g₂) → Draws r (.cplx w) (.cplx a a') (.cplx b b') l g₂ g' →
      Draws r (.cplx w) (.cplx a a') (.cplx b b') (.cplx x y :: l) g g'

/-- The C++ library permits a distribution with these bounds. -/
def AllowedArg {F G : Type} (r : Rng F G) : BTy → RVal F → RVal F → Prop
  | .int _, .int a, .int b | .uint _, .int a, .int b => a ≤ b
  | .flt w, .real a, .real b => r.realOk w a b = true
  | .cplx w, .cplx a a', .cplx b b' => r.realOk (partOf w) a b = true ∧ r.realOk (partOf w) a' b' = true
  | _, _, _ => False

/-- The distributions keep what the C++ library promises: with permitted bounds every draw lies between them. -/
structure Lawful {F G : Type} (r : Rng F G) (le : F → F → Prop) : Prop where
  int : ∀ T a b g, a ≤ b → a ≤ (r.int T a b g).1 ∧ (r.int T a b g).1 ≤ b
  real : ∀ w a b g, r.realOk w a b = true → le a (r.real w a b g).1 ∧ le (r.real w a b g).1 b

/-- between two bounds; for complex numbers both parts -/
def Between {F : Type} (le : F → F → Prop) : RVal F → RVal F → RVal F → Prop
  | .int a, .int b, .int x => a ≤ x ∧ x ≤ b
  | .real a, .real b, .real x => le a x ∧ le x b
  | .cplx a a', .cplx b b', .cplx x y => (le a x ∧ le x b) ∧ (le a' y ∧ le y b')
  | _, _, _ => False

/-! ### Draws -/

theorem draws_append {F G : Type} {r : Rng F G} {T : BTy} {lo hi : RVal F} {l l' : List (RVal F)} {g g₁ g₂ : G}
    (h : Draws r T lo hi l g g₁) (h' : Draws r T lo hi l' g₁ g₂) : Draws r T lo hi (l ++ l') g g₂ := by
  induction h with
  | none => exact h'
  | int w a b l g g' _ ih => exact .int w a b _ g g₂ (ih h')
  | uint w a b l g g' _ ih => exact .uint w a b _ g g₂ (ih h')
  | real w a b l g g' _ ih => exact .real w a b _ g g₂ (ih h')
  | cplx w a a' b b' l g g₁ g₃ g' x y i e1 e2 _ ih => exact .cplx w a a' b b' _ g g₁ g₃ g₂ x y i e1 e2 (ih h')
  | cplxRev w a a' b b' l g g₁ g₃ g' x y i e1 e2 _ ih => exact .cplxRev w a a' b b' _ g g₁ g₃ g₂ x y i e1 e2 (ih h')

/-- permitted bounds: every draw lies between them -/
theorem draws_between {F G : Type} {r : Rng F G} {le : F → F → Prop} (hr : Lawful r le) {T : BTy} {lo hi : RVal F}
    {l : List (RVal F)} {g g' : G} (h : Draws r T lo hi l g g') (ha : AllowedArg r T lo hi) :
    ∀ x ∈ l, Between le lo hi x := by
  induction h with
  | none => intro x hx; cases hx
  | int w a b l g g' _ ih =>
    intro x hx
    rcases List.mem_cons.1 hx with rfl | hx
    · exact hr.int _ a b g ha
    · exact ih ha x hx
  | uint w a b l g g' _ ih =>
    intro x hx
    rcases List.mem_cons.1 hx with rfl | hx
    · exact hr.int _ a b g ha
    · exact ih ha x hx
  | real w a b l g g' _ ih =>
    intro x hx
    rcases List.mem_cons.1 hx with rfl | hx
    · exact hr.real _ a b g ha
    · exact ih ha x hx
  | cplx w a a' b b' l g g₁ g₃ g' x y i e1 e2 _ ih =>
    intro z hz
    rcases List.mem_cons.1 hz with rfl | hz
    · have h1 := hr.real (partOf w) a b g ha.1
      have h2 := hr.real (partOf w) a' b' g₁ ha.2
      rw [e1] at h1; rw [e2] at h2
      exact ⟨h1, h2⟩
    · exact ih ha z hz
  | cplxRev w a a' b b' l g g₁ g₃ g' x y i e1 e2 _ ih =>
    intro z hz
    rcases List.mem_cons.1 hz with rfl | hz
    · have h2 := hr.real (partOf w) a' b' g ha.2
      have h1 := hr.real (partOf w) a b g₁ ha.1
      rw [e1] at h2; rw [e2] at h1
      exact ⟨h1, h2⟩
    · exact ih ha z hz

/-- one draw -/
theorem drawOne_spec {F G : Type} (r : Rng F G) {T : BTy} {lo hi : RVal F} (ha : AllowedArg r T lo hi) (g : G) :
    ∃ x g', drawOne r T lo hi g = .ok (x, g') ∧ Draws r T lo hi [x] g g' := by
  cases T with
  | void => exact ha.elim
  | bool => exact ha.elim
  | int w =>
    cases lo <;> cases hi <;> first | exact ha.elim | exact ⟨_, _, rfl, .int _ _ _ _ _ _ (.none _ _ _ _)⟩
  | uint w =>
    cases lo <;> cases hi <;> first | exact ha.elim | exact ⟨_, _, rfl, .uint _ _ _ _ _ _ (.none _ _ _ _)⟩
  | flt w =>
    cases lo <;> cases hi <;> first | exact ha.elim | exact ⟨_, _, rfl, .real _ _ _ _ _ _ (.none _ _ _ _)⟩
  | cplx w =>
    cases lo with
    | int a => cases hi <;> exact ha.elim
    | real a => cases hi <;> exact ha.elim
    | cplx a a' =>
      cases hi with
      | int b => exact ha.elim
      | real b => exact ha.elim
      | cplx b b' =>
        cases w <;>
        · cases hi : r.imagFirst
          · refine ⟨_, _, ?_, .cplx _ _ _ _ _ [] g _ _ _ _ _ hi rfl rfl (.none _ _ _ _)⟩
            simp [drawOne, hi, partOf]
          · refine ⟨_, _, ?_, .cplxRev _ _ _ _ _ [] g _ _ _ _ _ hi rfl rfl (.none _ _ _ _)⟩
            simp [drawOne, hi, partOf]

theorem distOk_iff {F G : Type} (r : Rng F G) (T : BTy) (lo hi : RVal F) : distOk r T lo hi = true ↔ AllowedArg r T lo hi := by
  cases T with
  | cplx w => cases w <;> cases lo <;> cases hi <;> simp [distOk, AllowedArg, partOf]
  | _ => cases lo <;> cases hi <;> simp [distOk, AllowedArg]

/-! ### A newly allocated destination -/

section
variable {F G : Type} {r : Rng F G} {T : BTy} {lo hi : RVal F}

/-- the kernels for an array with these dimensions and metadata -/
def levels0 : List UMeta → List RndLevel
  | [] => []
  | .fixed n s :: ms => .ff n s :: levels0 ms
  | .var s o :: ms => .vf s o :: levels0 ms

/-- what filling an element does -/
def FillsNew (r : Rng F G) (T : BTy) (lo hi : RVal F) (ds : List (Option Nat)) (dm : List UMeta) (w : Nat)
    (body : Int → FillState (RVal F) G → Res (FillState (RVal F) G)) : Prop :=
  ∀ (d : Int) (m : UDst (RVal F)) (g : G), Room w d m → ∃ (v : NestVal (RVal F)) (m' : UDst (RVal F)) (g' : G),
    body d (m, g) = .ok (m', g') ∧ RunsTo dm w v d m m' ∧ ShapedAs ds v ∧ Draws r T lo hi v.scalars g g'

theorem loop_new {ds : List (Option Nat)} {dm : List UMeta} {w : Nat}
    {body : Int → FillState (RVal F) G → Res (FillState (RVal F) G)} (hb : FillsNew r T lo hi ds dm w body) :
    ∀ (n : Nat) (st : Int), (st = w ∨ (st = 0 ∧ n ≤ 1)) → ∀ (d : Int) (m : UDst (RVal F)) (g : G), Room (n * w) d m →
      ∃ (vs : List (NestVal (RVal F))) (m' : UDst (RVal F)) (g' : G), rndLoop body n st d (m, g) = .ok (m', g') ∧
        m.next ≤ m'.next ∧
        (∀ a, m'.next ≤ a → m'.recs a = none) ∧
        (∀ a, a < m.next → ¬ (d ≤ a ∧ a < d + (n * w : Nat)) → m'.recs a = m.recs a ∧ m'.cells a = m.cells a) ∧
        (∀ (cells : Int → Option (RVal F)) (recs : Int → Option (Int × Nat)),
          (∀ a, (d ≤ a ∧ a < d + (n * w : Nat)) ∨ (m.next ≤ a ∧ a < m'.next) → recs a = m'.recs a ∧ cells a = m'.cells a) →
          viewList (viewArr cells recs dm) st n d = some vs) ∧
        vs.length = n ∧ (∀ x ∈ vs, ShapedAs ds x) ∧ Draws r T lo hi (scalarsAll vs) g g'
  | 0, st, hst, d, m, g, hr =>
    ⟨[], m, g, rfl, Int.le_refl _, hr.2.2, fun a _ _ => ⟨rfl, rfl⟩, fun _ _ _ => rfl, rfl, (by simp),
      Draws.none _ _ _ _⟩
  | n + 1, st, hst, d, m, g, hr => by
    obtain ⟨hr1, hr2, hr3⟩ := hr
    have ew : ((n + 1) * w : Nat) = w + n * w := by rw [Nat.succ_mul]; omega
    rw [ew] at hr1 hr2
    generalize hk : n * w = k at *
    have r1 : Room w d m := ⟨by omega, fun a h1 h2 => hr2 a h1 (by omega), hr3⟩
    obtain ⟨v, m1, g1, e1, ⟨p1, p2, p3, p4⟩, s1, d1⟩ := hb d m g r1
    have hst' : st = w ∨ (st = 0 ∧ n ≤ 1) := by rcases hst with h | ⟨h, h'⟩ <;> [exact .inl h; exact .inr ⟨h, by omega⟩]
    have hz : n = 0 → k = 0 := by intro h; rw [h] at hk; simpa using hk.symm
    have hk0 : st ≠ w → k = 0 := by
      intro h
      rcases hst with h' | ⟨_, h'⟩
      · exact absurd h' h
      · exact hz (by omega)
    have r2 : Room (n * w) (d + st) m1 := by
      rw [hk]
      rcases hst with h | ⟨h, h'⟩
      · refine ⟨by omega, fun a h1 h2 => ?_, p2⟩
        rw [(p3 a (by omega) (by omega)).1]
        exact hr2 a (by omega) (by omega)
      · have : k = 0 := hz (by omega)
        exact ⟨by omega, fun a h1 h2 => by omega, p2⟩
    obtain ⟨vs, m2, g2, e2, q1, q2, q3, q4, q5, q6, q7⟩ := loop_new hb n st hst' (d + st) m1 g1 r2
    rw [hk] at q3 q4
    refine ⟨v :: vs, m2, g2, ?_, by omega, q2, ?_, ?_, by simp [q5], ?_, ?_⟩
    · simp only [rndLoop]
      rw [e1, Res.bind_ok]
      exact e2
    · intro a h1 h2
      rw [ew] at h2
      by_cases hd : st = w
      · obtain ⟨a1, a2⟩ := q3 a (by omega) (by omega)
        obtain ⟨b1, b2⟩ := p3 a h1 (by omega)
        exact ⟨a1.trans b1, a2.trans b2⟩
      · have := hk0 hd
        obtain ⟨a1, a2⟩ := q3 a (by omega) (by omega)
        obtain ⟨b1, b2⟩ := p3 a h1 (by omega)
        exact ⟨a1.trans b1, a2.trans b2⟩
    · intro cells recs hag
      rw [ew] at hag
      simp only [viewList]
      have v1 : viewArr cells recs dm d = some v := by
        apply p4
        intro a ha
        have hq : m2.recs a = m1.recs a ∧ m2.cells a = m1.cells a := by
          by_cases hd : st = w
          · exact q3 a (by omega) (by omega)
          · have := hk0 hd
            exact q3 a (by omega) (by omega)
        obtain ⟨a1, a2⟩ := hag a (by omega)
        exact ⟨a1.trans hq.1, a2.trans hq.2⟩
      have v2 : viewList (viewArr cells recs dm) st n (d + st) = some vs := by
        apply q4
        intro a ha
        apply hag a
        by_cases hd : st = w
        · omega
        · have := hk0 hd
          omega
      rw [v1, v2]; rfl
    · intro x hx
      rcases List.mem_cons.1 hx with rfl | hx
      · exact s1
      · exact q6 x hx
    · exact draws_append d1 q7

/-- Filling a new array of any nesting. -/
theorem run_new (ha : AllowedArg r T lo hi) (sz : Nat) (hsz : 0 < sz) : ∀ ds : List (Option Nat),
    FillsNew r T lo hi ds (freshMeta sz ds) (dataSize sz ds) (run0 (drawOne r T lo hi) (levels0 (freshMeta sz ds)))
  | [] => by
    intro d m g hr
    obtain ⟨x, g', e, hd⟩ := drawOne_spec r ha g
    refine ⟨.elem x, { m with cells := putAt m.cells d x }, g', ?_, ⟨Int.le_refl _, hr.2.2, ?_, ?_⟩, trivial, hd⟩
    · simp only [freshMeta, levels0, run0, e, Res.bind_ok]; rfl
    · intro a _ h
      refine ⟨rfl, ?_⟩
      simp only [putAt]
      rw [if_neg]
      simp only [dataSize] at h
      omega
    · intro cells recs h
      have := (h d (.inl (by simp only [dataSize]; omega))).2
      simp only [freshMeta, viewArr, this, putAt, if_true, Option.map_some]
  | some n :: ds => by
    intro d m g hr
    simp only [dataSize] at hr
    obtain ⟨vs, m', g', e, h1, h2, h3, h4, h5, h6, h7⟩ := loop_new (run_new ha sz hsz ds) n (dataSize sz ds) (.inl rfl) d m g hr
    refine ⟨.list vs, m', g', ?_, ⟨h1, h2, h3, ?_⟩, ⟨h5, h6⟩, h7⟩
    · simp only [freshMeta, levels0, run0]
      exact e
    · intro cells recs h
      simp only [freshMeta, viewArr]
      rw [h4 cells recs h]; rfl
  | none :: ds => by
    intro d m g hr
    simp only [dataSize] at hr
    obtain ⟨r1, r2, r3⟩ := hr
    have hnone : m.recs d = none := r2 d (by omega) (by omega)
    let m0 : UDst (RVal F) := { m with recs := putAt m.recs d (m.next, 1), next := m.next + dataSize sz ds }
    have hm0 : m0.next = m.next + dataSize sz ds := rfl
    have hroom : Room (1 * dataSize sz ds) m.next m0 := by
      rw [Nat.one_mul]
      refine ⟨Int.le_refl _, ?_, ?_⟩
      · intro a h1 h2
        show putAt m.recs d (m.next, 1) a = none
        simp only [putAt]
        rw [if_neg (by omega)]
        exact r3 a h1
      · intro a h1
        have h1' : m.next + (dataSize sz ds : Int) ≤ a := h1
        show putAt m.recs d (m.next, 1) a = none
        simp only [putAt]
        rw [if_neg (by omega)]
        exact r3 a (by omega)
    obtain ⟨vs, m', g', e, h1, h2, h3, h4, h5, h6, h7⟩ := loop_new (run_new ha sz hsz ds) 1 0 (.inr ⟨rfl, by omega⟩) m.next m0 g hroom
    rw [Nat.one_mul] at h3 h4
    have hd' : m'.recs d = some (m.next, 1) ∧ m'.cells d = m.cells d := by
      have := h3 d (by omega) (by omega)
      refine ⟨this.1.trans ?_, this.2⟩
      show putAt m.recs d (m.next, 1) d = _
      simp [putAt]
    refine ⟨.list vs, m', g', ?_, ⟨by omega, h2, ?_, ?_⟩, ⟨h5, h6⟩, h7⟩
    · simp only [freshMeta, levels0, run0, hnone, ne_eq, not_true_eq_false, if_false]
      exact e
    · intro a ha hna
      have hq := h3 a (by omega) (by omega)
      refine ⟨hq.1.trans ?_, hq.2⟩
      show putAt m.recs d (m.next, 1) a = _
      simp only [putAt]
      simp only [dataSize] at hna
      rw [if_neg (by omega)]
    · intro cells recs h
      simp only [dataSize] at h
      simp only [freshMeta, viewArr]
      have hd := h d (.inl (by omega))
      rw [hd.1, hd'.1]
      simp only [Option.bind_some, Int.add_zero]
      have hl := h4 cells recs (fun a ha => h a (by right; omega))
      simp only [viewList] at hl ⊢
      rw [hl]; rfl

/-! ### An existing destination -/

/-- the values written at the addresses, one after the other -/
def writeEach {V : Type} (cells : Int → Option V) : List Int → List V → Int → Option V
  | a :: as, x :: xs => writeEach (putAt cells a x) as xs
  | _, _ => cells

theorem writeAll_append {V : Type} : ∀ (as : List Int) (xs : List V) (cells : Int → Option V) (as' : List Int) (xs' : List V),
    as.length = xs.length → writeEach cells (as ++ as') (xs ++ xs') = writeEach (writeEach cells as xs) as' xs'
  | [], [], _, _, _, _ => rfl
  | a :: as, x :: xs, cells, as', xs', h => writeAll_append as xs (putAt cells a x) as' xs' (by simpa using h)
  | [], _ :: _, _, _, _, h => by simp at h
  | _ :: _, [], _, _, _, h => by simp at h

theorem writeAll_other {V : Type} : ∀ (as : List Int) (xs : List V) (cells : Int → Option V) (x : Int), x ∉ as →
    writeEach cells as xs x = cells x
  | [], _, _, _, _ => rfl
  | _ :: _, [], _, _, _ => rfl
  | a :: as, v :: xs, cells, x, h => by
    simp only [List.mem_cons, not_or] at h
    rw [writeEach, writeAll_other as xs _ x h.2]
    simp only [putAt]
    rw [if_neg h.1]

theorem writeAll_at {V : Type} : ∀ (as : List Int) (xs : List V) (cells : Int → Option V), as.length = xs.length →
    as.Nodup → ∀ (i : Nat) (x : Int), as[i]? = some x → writeEach cells as xs x = xs[i]?
  | [], _, _, _, _, i, x, h => by simp at h
  | _ :: _, [], _, h, _, _, _, _ => by simp at h
  | a :: as, v :: xs, cells, hl, hn, i, x, h => by
    obtain ⟨h1, h2⟩ := List.nodup_cons.1 hn
    rw [writeEach]
    cases i with
    | zero =>
      simp only [List.getElem?_cons_zero, Option.some.injEq] at h
      subst h
      rw [writeAll_other as xs _ a h1]
      simp [putAt]
    | succ i =>
      simp only [List.getElem?_cons_succ] at h ⊢
      exact writeAll_at as xs _ (by simpa using hl) h2 i x h

/-- what filling an element that is there does -/
def FillsOld (r : Rng F G) (T : BTy) (lo hi : RVal F) (recs : Int → Option (Int × Nat)) (dm : List UMeta)
    (body : Int → FillState (RVal F) G → Res (FillState (RVal F) G)) : Prop :=
  ∀ (d : Int) (p : NestVal Int) (m : UDst (RVal F)) (g : G), m.recs = recs → viewArr (fun a => some a) recs dm d = some p →
    ∃ (vs : List (RVal F)) (g' : G), vs.length = p.scalars.length ∧ Draws r T lo hi vs g g' ∧
      body d (m, g) = .ok ({ m with cells := writeEach m.cells p.scalars vs }, g')

theorem loop_old {recs : Int → Option (Int × Nat)} {dm : List UMeta}
    {body : Int → FillState (RVal F) G → Res (FillState (RVal F) G)} (hb : FillsOld r T lo hi recs dm body) (st st' : Int) :
    ∀ (n : Nat), (st' = st ∨ n ≤ 1) → ∀ (d : Int) (ps : List (NestVal Int)) (m : UDst (RVal F)) (g : G), m.recs = recs →
      viewList (viewArr (fun a => some a) recs dm) st n d = some ps →
      ∃ (vs : List (RVal F)) (g' : G), vs.length = (scalarsAll ps).length ∧ Draws r T lo hi vs g g' ∧
        rndLoop body n st' d (m, g) = .ok ({ m with cells := writeEach m.cells (scalarsAll ps) vs }, g')
  | 0, _, d, ps, m, g, _, hv => by
    simp only [viewList, Option.some.injEq] at hv
    subst hv
    exact ⟨[], g, rfl, .none _ _ _ _, rfl⟩
  | n + 1, hst, d, ps, m, g, hm, hv => by
    simp only [viewList, Option.bind_eq_some_iff, Option.map_eq_some_iff] at hv
    obtain ⟨x, hx, xs, hxs, rfl⟩ := hv
    obtain ⟨v1, g1, l1, d1, e1⟩ := hb d x m g hm hx
    have hxs' : viewList (viewArr (fun a => some a) recs dm) st n (d + st') = some xs := by
      rcases hst with h | h
      · rw [h]; exact hxs
      · have : n = 0 := by omega
        subst this
        exact hxs
    obtain ⟨v2, g2, l2, d2, e2⟩ := loop_old hb st st' n (by omega) (d + st') xs
      { m with cells := writeEach m.cells x.scalars v1 } g1 hm hxs'
    refine ⟨v1 ++ v2, g2, by simp [scalarsAll, l1, l2], draws_append d1 d2, ?_⟩
    simp only [rndLoop, e1, Res.bind_ok, e2, scalarsAll]
    rw [writeAll_append _ _ _ _ _ l1.symm]

/-- Filling an existing array of any nesting and any strides: one draw for each element, in row-major order. -/
theorem run_old (ha : AllowedArg r T lo hi) (recs : Int → Option (Int × Nat)) : ∀ dm : List UMeta,
    FillsOld r T lo hi recs dm (run0 (drawOne r T lo hi) (levels0 dm))
  | [] => by
    intro d p m g _ hv
    simp only [viewArr, Option.map_some, Option.some.injEq] at hv
    subst hv
    obtain ⟨x, g', e, hd⟩ := drawOne_spec r ha g
    refine ⟨[x], g', rfl, hd, ?_⟩
    simp only [levels0, run0, e, Res.bind_ok]; rfl
  | .fixed n s :: dm => by
    intro d p m g hm hv
    simp only [viewArr, Option.map_eq_some_iff] at hv
    obtain ⟨ps, hps, rfl⟩ := hv
    simp only [levels0, run0, NestVal.scalars]
    exact loop_old (run_old ha recs dm) s s n (.inl rfl) d ps m g hm hps
  | .var s o :: dm => by
    intro d p m g hm hv
    simp only [viewArr, Option.bind_eq_some_iff, Option.map_eq_some_iff] at hv
    obtain ⟨⟨b, n⟩, hrec, ps, hps, rfl⟩ := hv
    subst hm
    simp only [levels0, run0, hrec, NestVal.scalars]
    exact loop_old (run_old ha m.recs dm) s _ n (by by_cases h : n ≤ 1 <;> simp [h]) (b + o) ps m g rfl hps

end

end Dynd
