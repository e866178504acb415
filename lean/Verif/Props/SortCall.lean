/-
C124: `nd::binary_search` and `nd::sort` as they are called.
-/
import Verif.Model.SortRun
import Verif.Model.ReduceRun
import Verif.Props.OperatorLimits
import Verif.Props.StatsProps
import Verif.Props.KernelProps

namespace Dynd

/-! ### The check of the arguments -/

theorem scalarPat_is (same : List Nat → Bool) {c : Ty} (hc : Concrete c) :
    tyMatch same (.kind .scalar) c = true ↔ ¬ IsDim c := by
  rw [tyMatch_pat same .scalar]
  exact patMatch_is (p := .scal) hc _

theorem fixedScalar_fixed (same : List Nat → Bool) (n : Int) (el : Ty) :
    tyMatch same (.fixedDimKind (.kind .scalar)) (.fixedDim n el) =
      tyMatch (fun q => same (0 :: q)) (.kind .scalar) el := by
  have e : matchTy same (.fixedDimKind (.kind .scalar)) (.fixedDim n el) Env.empty =
      matchTy (fun q => same (0 :: q)) (.kind .scalar) el Env.empty := by
    conv => lhs; unfold matchTy
    have : ¬ (same [] && tyEq (.fixedDimKind (.kind .scalar)) (.fixedDim n el)) = true := by simp [tyEq]
    rw [if_neg this]
  unfold tyMatch matchFresh
  rw [e]

theorem fixedScalar_is (same : List Nat → Bool) {c : Ty} (hc : Concrete c) :
    tyMatch same (.fixedDimKind (.kind .scalar)) c = true ↔ ∃ n el, c = .fixedDim n el ∧ ¬ IsDim el := by
  cases c with
  | fixedDim n el =>
    rw [fixedScalar_fixed, scalarPat_is _ hc.2]
    constructor
    · exact fun h => ⟨n, el, rfl, h⟩
    · rintro ⟨m, e, h, h2⟩; cases h; exact h2
  | fixedDimKind el => exact hc.elim
  | _ =>
    first
    | (constructor
       · intro h
         exfalso
         unfold tyMatch matchFresh at h
         simp [matchTy, tyEq] at h
       · rintro ⟨_, _, h, _⟩; cases h)

/-! ### What is compared -/

/-- The overloads of `total_order` are found for the three types they are for, and for no other. -/
theorem total_table (same : List Nat → Bool) : makeTotal same = .ok [some .bool, some .i32, some .str] := by
  have pc : ∀ e : TOEntry, ∃ p : PC, e.sig = [p.ty, p.ty] ∧ ∀ f : TOEntry, ∀ q : PC, f.sig = [q.ty, q.ty] →
      tyMatch same p.ty q.ty = decide (e = f) := by
    intro e
    have h : ∀ e : TOEntry, ∃ p : PC, e.sig = [p.ty, p.ty] ∧ ((e = .str ∧ p = .str) ∨ (e = .i32 ∧ p = .prim (.int .w32)) ∨
        (e = .bool ∧ p = .prim .bool)) := by
      intro e
      cases e
      · exact ⟨.str, rfl, .inl ⟨rfl, rfl⟩⟩
      · exact ⟨.prim (.int .w32), rfl, .inr (.inl ⟨rfl, rfl⟩)⟩
      · exact ⟨.prim .bool, rfl, .inr (.inr ⟨rfl, rfl⟩)⟩
    obtain ⟨p, hp, hp'⟩ := h e
    refine ⟨p, hp, fun f q hq => ?_⟩
    rw [tyMatch_pat same (pc_tablePat p)]
    have hq' : q.ty = f.sig.head (by cases f <;> simp [TOEntry.sig]) := by simp only [hq, List.head_cons]
    rw [hq']
    rcases hp' with ⟨rfl, rfl⟩ | ⟨rfl, rfl⟩ | ⟨rfl, rfl⟩ <;> cases f <;> simp [TOEntry.sig, PC.ty, patMatch, tyEq]
  have m : ∀ e f : TOEntry, supercedes (tyMatch same) e.sig f.sig = decide (e = f) := by
    intro e f
    obtain ⟨p, hp, _⟩ := pc e
    obtain ⟨q, hq, hf⟩ := pc f
    rw [hq, hp]
    simp only [supercedes, hf e p hp]
    by_cases h : e = f
    · subst h; simp
    · rw [decide_eq_false (fun h' => h h'.symm), decide_eq_false h]; rfl
  unfold makeTotal
  rw [flat_dispAssign (by simp)]
  · rfl
  · intro u _ v _
    obtain ⟨p, hp, _⟩ := pc u
    obtain ⟨q, hq, hf⟩ := pc v
    rw [hp, hq]
    simp only [ambiguous, consistent, supercedes, Bool.and_true]
    cases tyMatch same p.ty q.ty <;> cases tyMatch same q.ty p.ty <;> rfl
  · intro u _ v _
    simp only [edge, m]
    by_cases h : v = u
    · subst h; simp
    · have h2 : ¬ u = v := fun h' => h h'.symm
      simp [h2]

/-! ### The search -/

theorem searchAt_eq {α : Type} (m : EMem) (e : TOEntry) (base stride key : Int) (less : α → α → Bool) (arr : List α) (k : α)
    (h : ∀ (i : Nat) x, arr[i]? = some x → orderAt m e key (base + i * stride) = .ok (less k x) ∧
      orderAt m e (base + i * stride) key = .ok (less x k)) :
    ∀ (fuel first last : Nat), last ≤ arr.length →
      searchAt m e base stride key fuel first last = bsearchLoop less arr k fuel first last
  | 0, _, _, _ => rfl
  | fuel + 1, first, last, hl => by
    unfold searchAt bsearchLoop
    by_cases hlt : first < last
    · rw [if_pos hlt, if_pos (by omega)]
      have ht : (first : Int) + ((last : Int) - first).tdiv 2 = ((first + (last - first) / 2 : Nat) : Int) := by
        rw [Int.tdiv_eq_ediv_of_nonneg (by omega)]; omega
      have hx := List.getElem?_eq_getElem (l := arr) (i := first + (last - first) / 2) (by omega)
      obtain ⟨h1, h2⟩ := h _ _ hx
      simp only [ht]
      rw [h1, Res.bind_ok, hx]
      simp only []
      rw [searchAt_eq m e base stride key less arr k h fuel first _ (by omega)]
      split
      · rfl
      · rw [h2, Res.bind_ok]
        split
        · have := searchAt_eq m e base stride key less arr k h fuel (first + (last - first) / 2 + 1) last hl
          push_cast at this ⊢
          exact this
        · rfl
    · rw [if_neg hlt, if_neg (by omega)]

/-! ### Specification of the search -/

/-- The bytes `bs` are at address `a`. -/
def BytesAt (m : EMem) (a : Int) (bs : List Nat) : Prop := ∀ (i : Nat) b, bs[i]? = some b → m.byte (a + i) = some b

/-- The element `v` of type `T` is at address `a`: a 32-bit integer in two's complement, a boolean, a string. -/
def ElemAt : Ty → EMem → Int → SElem → Prop
  | .prim (.int .w32), m, a, .int v => -2 ^ 31 ≤ v ∧ v < 2 ^ 31 ∧ BytesAt m a (leBytes 4 (v % 2 ^ 32).toNat)
  | .prim .bool, m, a, .int v => ∃ b, m.byte a = some b ∧ v = if b = 0 then 0 else 1
  | .leaf .string, m, a, .str cs => m.str a = some cs
  | _, _, _, _ => False

/-- `x` comes before `y`: integers by value (`false` before `true`), strings lexicographically. -/
def Precedes : SElem → SElem → Prop
  | .int a, .int b => a < b
  | .str a, .str b => a < b
  | _, _ => False

/-- What a search among `n` elements answers: the position of an element equal to the one searched for; or -1, and on
    sorted elements there is none. -/
def Answer (n : Nat) (xs : Nat → SElem) (k : SElem) (r : Int) : Prop :=
  (∃ i : Nat, i < n ∧ r = i ∧ xs i = k) ∨
  (r = -1 ∧ ((∀ i j, i < j → j < n → ¬ Precedes (xs j) (xs i)) → ∀ i, i < n → xs i ≠ k))

theorem lexLess_iff : ∀ a b : List Int, lexLess a b = true ↔ a < b
  | a, [] => by simp [lexLess]
  | [], b :: bs => by simp [lexLess]
  | a :: as, b :: bs => by
    rw [List.cons_lt_cons_iff, ← lexLess_iff as bs]
    simp only [lexLess]
    split
    · simp_all
    · split
      · have : ¬ a = b := by omega
        simp_all
      · have : a = b := by omega
        subst this; simp

theorem num_leBytes (m : EMem) : ∀ (w n : Nat) (a : Int), n < 256 ^ w → BytesAt m a (leBytes w n) → m.num a w = some n
  | 0, n, a, h, _ => by simp at h; simp [EMem.num, h]
  | w + 1, n, a, h, hb => by
    have h0 : m.byte a = some (n % 256) := by simpa using hb 0 (n % 256) rfl
    have h1 : m.num (a + 1) w = some (n / 256) := by
      refine num_leBytes m w (n / 256) (a + 1) ?_ ?_
      · rw [Nat.div_lt_iff_lt_mul (by omega)]; rwa [pow_succ] at h
      · intro i b hi
        have := hb (i + 1) b (by simpa [leBytes] using hi)
        rw [← this]; congr 1; push_cast; omega
    simp only [EMem.num, h0, h1]
    congr 1; omega

theorem elem_i32 {m : EMem} {a : Int} {x : SElem} (h : ElemAt (.prim (.int .w32)) m a x) :
    ∃ v n, x = .int v ∧ m.num a 4 = some n ∧ (if n < 2 ^ 31 then (n : Int) else n - 2 ^ 32) = v := by
  cases x with
  | int v =>
    obtain ⟨h1, h2, h3⟩ := h
    refine ⟨v, _, rfl, num_leBytes m 4 _ a ?_ h3, ?_⟩
    · have := Int.emod_lt_of_pos v (show (0 : Int) < 2 ^ 32 by norm_num)
      have := Int.emod_nonneg v (show (2 ^ 32 : Int) ≠ 0 by norm_num)
      have e : (256 : Nat) ^ 4 = 2 ^ 32 := by norm_num
      rw [e]; omega
    · split <;> omega
  | _ => exact h.elim

theorem answer_of {α : Type} {n : Nat} {xs : Nat → SElem} {k : SElem} {less : α → α → Bool} (arr : List α) (key : α)
    (c : α → SElem) (hn : arr.length = n) (hx : ∀ i x, arr[i]? = some x → xs i = c x) (hk : k = c key)
    (hinj : ∀ x, less x key = false → less key x = false → x = key) (hcc : ∀ x y, c x = c y → x = y)
    (hirr : ∀ x, less x x = false)
    (hb : ∀ x y, less x y = true → Precedes (c x) (c y)) (hw : StrictWeakLess less) :
    ∃ r, bsearchLoop less arr key (n + 1) 0 n = .ok r ∧ Answer n xs k r := by
  subst hn
  rcases binary_search_exact less arr key with ⟨i, e, hi, y, hy, h1, h2⟩ | ⟨e, hno⟩
  · refine ⟨i, e, .inl ⟨i, hi, rfl, ?_⟩⟩
    rw [hx i y hy, hk, hinj y h2 h1]
  · refine ⟨-1, e, .inr ⟨rfl, fun hs i hi he => ?_⟩⟩
    have gi := List.getElem?_eq_getElem (l := arr) hi
    refine hno hw ?_ i ⟨_, gi, ?_, ?_⟩
    · unfold SortedBy
      rw [List.pairwise_iff_getElem]
      intro a b ha hb' hab
      cases hl : less arr[b] arr[a] with
      | false => rfl
      | true =>
        have := hb _ _ hl
        rw [← hx b _ (List.getElem?_eq_getElem hb'), ← hx a _ (List.getElem?_eq_getElem ha)] at this
        exact absurd this (hs a b hab hb')
    all_goals
      rw [hx i _ gi, hk] at he
      rw [hcc _ _ he, hirr]

/-- The overload of `total_order` for a type. -/
theorem search_resolve (same : List Nat → Bool) (e : TOEntry) (T : Ty) (he : e.sig = [T, T]) (n : Int) :
    resolveSearch same [some .bool, some .i32, some .str] (.fixedDim n T) = .ok e := by
  classical
  have t : ∀ p : PC, ∀ c : Ty, Concrete c → (tyMatch same p.ty c = true ↔ pcIs p c) := fun p c hc => by
    rw [tyMatch_pat same (pc_tablePat p), patMatch_is hc]
  have hb : ∀ c, Concrete c → tyMatch same (.prim .bool) c = decide (c = .prim .bool) := fun c hc => by
    rw [Bool.eq_iff_iff, decide_eq_true_iff]; exact t (.prim .bool) c hc
  have hi : ∀ c, Concrete c → tyMatch same (.prim (.int .w32)) c = decide (c = .prim (.int .w32)) := fun c hc => by
    rw [Bool.eq_iff_iff, decide_eq_true_iff]; exact t (.prim (.int .w32)) c hc
  have hs : ∀ c, Concrete c → tyMatch same (.leaf .string) c = decide (c = .leaf .string) := fun c hc => by
    rw [Bool.eq_iff_iff, decide_eq_true_iff]; exact t .str c hc
  have con : Concrete T := by cases e <;> simp [TOEntry.sig] at he <;> (subst he; trivial)
  simp only [resolveSearch, dispCall, TOEntry.sig, supercedes, Bool.and_true, Bool.and_self, hb _ con, hi _ con, hs _ con]
  cases e <;> simp [TOEntry.sig] at he <;> subst he <;> simp

/-- Searching an array of `n` elements of one of the three types, whatever the type of the value: what is at the address
    of the value, read as an element of the array, is searched for. -/
theorem search_run (same : List Nat → Bool) {T : Ty} (hT : T = .prim (.int .w32) ∨ T = .prim .bool ∨ T = .leaf .string)
    {N : Int} {n : Nat} {stride base key : Int} {sm : List UMeta} {S : Ty} (hS : Concrete S) (hd : ¬ IsDim S) {m : EMem}
    {xs : Nat → SElem} {k : SElem} (hN : 0 ≤ N) (hx : ∀ i : Nat, i < n → ElemAt T m (base + i * stride) (xs i))
    (hk : ElemAt T m key k) :
    ∃ r, searchCall same [some .bool, some .i32, some .str] (.fixedDim N T) (.fixed n stride :: sm) base S key m = .ok r ∧
      Answer n xs k r := by
  have conT : Concrete T := by rcases hT with rfl | rfl | rfl <;> trivial
  have dT : ¬ IsDim T := by rcases hT with rfl | rfl | rfl <;> exact fun h => h
  have c1 : (tyMatch same (.fixedDimKind (.kind .scalar)) (.fixedDim N T) && tyMatch same (.kind .scalar) S) = true := by
    rw [Bool.and_eq_true, fixedScalar_is same (show Concrete (.fixedDim N T) from ⟨hN, conT⟩), scalarPat_is same hS]
    exact ⟨⟨N, T, rfl, dT⟩, hd⟩
  have go : ∀ e : TOEntry, e.sig = [T, T] → (∃ r, searchAt m e base stride key (n + 1) 0 n = .ok r ∧ Answer n xs k r) →
      ∃ r, searchCall same [some .bool, some .i32, some .str] (.fixedDim N T) (.fixed n stride :: sm) base S key m = .ok r ∧
        Answer n xs k r := by
    intro e he ⟨r, h1, h2⟩
    refine ⟨r, ?_, h2⟩
    unfold searchCall
    rw [if_pos c1, search_resolve same e T he, Res.bind_ok]
    exact h1
  have hl : ∀ {α : Type} (g : Nat → α) i x, ((List.range n).map g)[i]? = some x → i < n ∧ x = g i := by
    intro α g i x h
    rw [List.getElem?_map] at h
    by_cases hi : i < n
    · rw [List.getElem?_range hi] at h; exact ⟨hi, by simpa using h.symm⟩
    · rw [List.getElem?_eq_none (by simpa using hi)] at h; cases h
  have hw := strictWeak_int
  rcases hT with rfl | rfl | rfl
  · refine go .i32 rfl ?_
    obtain ⟨vk, nk, rfl, ek, hvk⟩ := elem_i32 hk
    let g : Nat → Int := fun i => match xs i with | .int v => v | _ => 0
    have hg : ∀ i, i < n → xs i = .int (g i) ∧ ∃ q, m.num (base + i * stride) 4 = some q ∧
        (if q < 2 ^ 31 then (q : Int) else q - 2 ^ 32) = g i := by
      intro i hi
      obtain ⟨v, q, e1, e2, e3⟩ := elem_i32 (hx i hi)
      have : g i = v := by simp only [g, e1]
      exact ⟨by rw [e1, this], q, e2, by rw [e3, this]⟩
    have := searchAt_eq m .i32 base stride key (fun a b : Int => decide (a < b)) ((List.range n).map g) vk (by
      intro i x hix
      obtain ⟨hi, rfl⟩ := hl g i x hix
      obtain ⟨_, q, e2, e3⟩ := hg i hi
      simp only [orderAt, ek, e2, e3, hvk, and_self]) (n + 1) 0 n (by simp)
    rw [Nat.cast_zero] at this
    rw [this]
    refine answer_of _ vk SElem.int (by simp) (fun i x hix => ?_) rfl (fun x h1 h2 => ?_) (fun x y h => by simpa using h)
      (fun x => by simp) (fun x y h => by simpa [Precedes] using h) hw
    · obtain ⟨hi, rfl⟩ := hl g i x hix
      exact (hg i hi).1
    · simp at h1 h2; omega
  · refine go .bool rfl ?_
    cases k with
    | int vk =>
      obtain ⟨bk, ek, hvk⟩ := hk
      let g : Nat → Int := fun i => match xs i with | .int v => v | _ => 0
      have hg : ∀ i, i < n → xs i = .int (g i) ∧ ∃ q, m.byte (base + i * stride) = some q ∧
          g i = if q = 0 then 0 else 1 := by
        intro i hi
        have h := hx i hi
        cases hxi : xs i with
        | int v =>
          rw [hxi] at h
          obtain ⟨q, e1, e2⟩ := h
          have : g i = v := by simp only [g, hxi]
          exact ⟨by rw [this], q, e1, by rw [this, e2]⟩
        | _ => rw [hxi] at h; exact h.elim
      have := searchAt_eq m .bool base stride key (fun a b : Int => decide (a < b)) ((List.range n).map g) vk (by
        intro i x hix
        obtain ⟨hi, rfl⟩ := hl g i x hix
        obtain ⟨_, q, e2, e3⟩ := hg i hi
        simp only [orderAt, ek, e2, e3, hvk]
        constructor
        all_goals
          congr 1
          by_cases h1 : q = 0 <;> by_cases h2 : bk = 0 <;> simp [h1, h2]) (n + 1) 0 n (by simp)
      rw [Nat.cast_zero] at this
      rw [this]
      refine answer_of _ vk SElem.int (by simp) (fun i x hix => ?_) rfl (fun x h1 h2 => ?_) (fun x y h => by simpa using h)
        (fun x => by simp) (fun x y h => by simpa [Precedes] using h) hw
      · obtain ⟨hi, rfl⟩ := hl g i x hix
        exact (hg i hi).1
      · simp at h1 h2; omega
    | _ => exact hk.elim
  · refine go .str rfl ?_
    cases k with
    | str ck =>
      let g : Nat → List Int := fun i => match xs i with | .str v => v | _ => []
      have hg : ∀ i, i < n → xs i = .str (g i) ∧ m.str (base + i * stride) = some (g i) := by
        intro i hi
        have h := hx i hi
        cases hxi : xs i with
        | str v =>
          rw [hxi] at h
          have : g i = v := by simp only [g, hxi]
          rw [this]
          exact ⟨rfl, h⟩
        | _ => rw [hxi] at h; exact h.elim
      have hk' : m.str key = some ck := hk
      have := searchAt_eq m .str base stride key lexLess ((List.range n).map g) ck (by
        intro i x hix
        obtain ⟨hi, rfl⟩ := hl g i x hix
        obtain ⟨_, e2⟩ := hg i hi
        simp only [orderAt, hk', e2, and_self]) (n + 1) 0 n (by simp)
      rw [Nat.cast_zero] at this
      rw [this]
      refine answer_of _ ck SElem.str (by simp) (fun i x hix => ?_) rfl (fun x h1 h2 => ?_) (fun x y h => by simpa using h)
        (fun x => ?_) (fun x y h => (lexLess_iff x y).1 h) strictWeak_lex
      · obtain ⟨hi, rfl⟩ := hl g i x hix
        exact (hg i hi).1
      · have a1 : ¬ x < ck := fun h => by rw [(lexLess_iff _ _).2 h] at h1; cases h1
        have a2 : ¬ ck < x := fun h => by rw [(lexLess_iff _ _).2 h] at h2; cases h2
        exact le_antisymm (not_lt.1 a2) (not_lt.1 a1)
      · cases h : lexLess x x with
        | false => rfl
        | true => exact absurd ((lexLess_iff _ _).1 h) (lt_irrefl _)
    | _ => exact hk.elim

/-- C124: `nd::binary_search(a, v)` on a one-dimensional array of 32-bit integers, booleans or strings and a value of the
    same type, at any address and stride, answers with the position of an element equal to `v`, or -1; on a sorted array
    -1 means that there is none. -/
theorem search_call_partial (same : List Nat → Bool) : ∃ tbl, makeTotal same = .ok tbl ∧
    ∀ T ∈ [Ty.prim (.int .w32), .prim .bool, .leaf .string], ∀ (N : Int) (n : Nat) (stride base key : Int) (sm : List UMeta)
      (m : EMem) (xs : Nat → SElem) (k : SElem), 0 ≤ N → (∀ i : Nat, i < n → ElemAt T m (base + i * stride) (xs i)) →
      ElemAt T m key k →
      ∃ r, searchCall same tbl (.fixedDim N T) (.fixed n stride :: sm) base T key m = .ok r ∧ Answer n xs k r := by
  refine ⟨_, total_table same, fun T hT N n stride base key sm m xs k hN hx hk => ?_⟩
  have hT' : T = .prim (.int .w32) ∨ T = .prim .bool ∨ T = .leaf .string := by simpa using hT
  have conT : Concrete T := by rcases hT' with rfl | rfl | rfl <;> trivial
  have dT : ¬ IsDim T := by rcases hT' with rfl | rfl | rfl <;> exact fun h => h
  exact search_run same hT' conT dT hN hx hk

/-- Element types without an overload of `total_order`. -/
theorem search_none (same : List Nat → Bool) {el : Ty} (hc : Concrete el) (h1 : el ≠ .prim (.int .w32)) (h2 : el ≠ .prim .bool)
    (h3 : el ≠ .leaf .string) (n : Int) :
    resolveSearch same [some .bool, some .i32, some .str] (.fixedDim n el) = .throw .outOfRange := by
  have t : ∀ p : PC, ¬ pcIs p el → tyMatch same p.ty el = false := fun p h => by
    rw [tyMatch_pat same (pc_tablePat p)]
    cases hm : patMatch (same []) p.ty el with
    | false => rfl
    | true => exact absurd ((patMatch_is hc _).1 hm) h
  have e1 : tyMatch same (.prim (.int .w32)) el = false := t (.prim (.int .w32)) h1
  have e2 : tyMatch same (.prim .bool) el = false := t (.prim .bool) h2
  have e3 : tyMatch same (.leaf .string) el = false := t .str h3
  simp [resolveSearch, dispCall, TOEntry.sig, supercedes, e1, e2, e3]

/-- C124: what `binary_search` refuses: an array of other elements, an array that is not one-dimensional of fixed size,
    an array in place of the value. -/
theorem search_rejected (same : List Nat → Bool) : ∃ tbl, makeTotal same = .ok tbl ∧
    ∀ (a v : Ty) (sm : List UMeta) (base key : Int) (m : EMem), Concrete a → Concrete v →
      ((∀ N el, a = .fixedDim N el → IsDim el) ∨ IsDim v → searchCall same tbl a sm base v key m = .throw .invalidArg) ∧
      (∀ N el, a = .fixedDim N el → ¬ IsDim el → ¬ IsDim v → el ∉ [Ty.prim (.int .w32), .prim .bool, .leaf .string] →
        searchCall same tbl a sm base v key m = .throw .outOfRange) := by
  refine ⟨_, total_table same, fun a v sm base key m ha hv => ⟨fun h => ?_, fun N el he hd hdv hn => ?_⟩⟩
  · unfold searchCall
    rw [if_neg]
    rw [Bool.and_eq_true, fixedScalar_is same ha, scalarPat_is same hv]
    rintro ⟨⟨N, el, e, hd⟩, hdv⟩
    rcases h with h | h
    · exact hd (h N el e)
    · exact hdv h
  · subst he
    simp only [List.mem_cons, List.not_mem_nil, or_false, not_or] at hn
    unfold searchCall
    rw [if_pos, search_none same ha.2 hn.1 hn.2.1 hn.2.2]
    · rfl
    · rw [Bool.and_eq_true, fixedScalar_is same ha, scalarPat_is same hv]
      exact ⟨⟨N, el, rfl, hd⟩, hdv⟩

/-- C124 is violated when the value has another type than the elements: it is not converted, its bytes are read as an
    element.  5.0 is found where the array holds 0 (the first four bytes of the number), whatever else it holds; and of a
    value shorter than an element memory outside it is read. -/
theorem search_key_violated (same : List Nat → Bool) : ∃ tbl, makeTotal same = .ok tbl ∧
    (∀ (N : Int) (n : Nat) (stride base key : Int) (sm : List UMeta) (m : EMem) (xs : Nat → SElem), 0 ≤ N →
      (∀ i : Nat, i < n → ElemAt (.prim (.int .w32)) m (base + i * stride) (xs i)) →
      (∀ i j, i < j → j < n → ¬ Precedes (xs j) (xs i)) → (∃ i, i < n ∧ xs i = .int 0) →
      BytesAt m key [0, 0, 0, 0, 0, 0, 20, 64] →
      ∃ i : Nat, i < n ∧ xs i = .int 0 ∧
        searchCall same tbl (.fixedDim N (.prim (.int .w32))) (.fixed n stride :: sm) base (.prim (.flt .f64)) key m = .ok i) ∧
    (∀ (N : Int) (n : Nat) (stride base key : Int) (sm : List UMeta) (m : EMem), 0 ≤ N → 0 < n →
      m.byte (key + 1) = none →
      searchCall same tbl (.fixedDim N (.prim (.int .w32))) (.fixed n stride :: sm) base (.prim .bool) key m = .ub) := by
  refine ⟨_, total_table same, fun N n stride base key sm m xs hN hx hs hz hb => ?_, fun N n stride base key sm m hN hn hb => ?_⟩
  · have hk : ElemAt (.prim (.int .w32)) m key (.int 0) := by
      refine ⟨by norm_num, by norm_num, fun i b h => hb i b ?_⟩
      have e : leBytes 4 ((0 : Int) % 2 ^ 32).toNat = [0, 0, 0, 0] := by decide
      rw [e] at h
      have hi : i < 4 := by
        by_contra hc
        rw [List.getElem?_eq_none (by simpa using hc)] at h; cases h
      rcases i with _ | _ | _ | _ | i
      · exact h
      · exact h
      · exact h
      · exact h
      · omega
    obtain ⟨r, e, ha⟩ := search_run same (S := .prim (.flt .f64)) (N := N) (sm := sm) (.inl rfl) trivial (fun h => h) hN hx hk
    rcases ha with ⟨i, hi, rfl, h0⟩ | ⟨_, h0⟩
    · exact ⟨i, hi, h0, e⟩
    · obtain ⟨i, hi, h⟩ := hz
      exact absurd h (h0 hs i hi)
  · unfold searchCall
    rw [if_pos, search_resolve same .i32 _ rfl, Res.bind_ok]
    · show searchAt m .i32 base stride key (n + 1) 0 n = .ub
      unfold searchAt
      rw [if_pos (by omega)]
      have e : m.num key 4 = none := by
        simp only [EMem.num, hb]
        cases m.byte key <;> rfl
      simp only [orderAt, e]
      rfl
    · rw [Bool.and_eq_true, fixedScalar_is same (show Concrete (.fixedDim N (.prim (.int .w32))) from ⟨hN, trivial⟩),
        scalarPat_is same (show Concrete (.prim .bool) from trivial)]
      exact ⟨⟨N, _, rfl, fun h => h⟩, fun h => h⟩

/-- C124: the code of a category is looked up with `binary_search`: for categories of another type than 32-bit integers,
    booleans and strings every lookup fails, whatever the categories are. -/
theorem category_lookup_violated (same : List Nat → Bool) : ∃ tbl, makeTotal same = .ok tbl ∧
    ∀ (cat : Ty) (n : Nat) (stride base key : Int) (m : EMem) (i2v : List Nat), Concrete cat →
      cat ∉ [Ty.prim (.int .w32), .prim .bool, .leaf .string] →
      categoryCode same tbl cat n stride base key m i2v = .throw .outOfRange := by
  refine ⟨_, total_table same, fun cat n stride base key m i2v hc hn => ?_⟩
  simp only [List.mem_cons, List.not_mem_nil, or_false, not_or] at hn
  unfold categoryCode
  rw [search_none same hc hn.1 hn.2.1 hn.2.2]
  rfl

end Dynd
