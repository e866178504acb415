/-
C37, second part: substituting the variables bound by a match gives back the matched type; and where matching and
substitution do not do what they should.
-/
import Verif.Props.MatchProps

namespace Dynd

mutual
/-- Patterns built from concrete types, type variables, dimension variables and powers of a fixed dimension
    (no kinds, no variadic parts, no callables, no ellipsis); a struct has as many names as types. -/
def SPat : Ty → Prop
  | .prim _ | .leaf _ | .typevar _ => True
  | .fixedDim _ el | .varDim el | .typevarDim _ el => SPat el
  | .pointer t | .option t => SPat t
  | .tuple ts v => v = false ∧ SPats ts
  | .struct ns ts v => v = false ∧ ns.length = ts.length ∧ SPats ts
  | .powDimsym base _ el => (∃ n b, base = .fixedDim n b) ∧ SPat el
  | _ => False
/-- every element is an `SPat` pattern -/
def SPats : List Ty → Prop
  | [] => True
  | t :: ts => SPat t ∧ SPats ts
end

mutual
theorem spat_pok {p : Ty} (h : SPat p) : POk p := by
  cases p <;> simp only [SPat, POk] at h ⊢
  case fixedDim n el => exact spat_pok h
  case varDim el => exact spat_pok h
  case pointer t => exact spat_pok h
  case option t => exact spat_pok h
  case tuple ts v => exact spats_poks h.2
  case struct ns ts v => exact spats_poks h.2.2
  case typevarDim s el => exact spat_pok h
  case powDimsym b x el => exact ⟨.inl h.1, spat_pok h.2⟩
theorem spats_poks {ts : List Ty} (h : SPats ts) : POks ts := by
  cases ts with
  | nil => trivial
  | cons t ts => exact ⟨spat_pok h.1, spats_poks h.2⟩
end

theorem applyPow_powDims {n : Int} {b : Ty} (k : Nat) {c e : Ty} (h : PowDims (.fixedDim n b) k c e) :
    applyPow true (.fixedDim n b) k e = .ok c := by
  induction k generalizing c with
  | zero => simp only [PowDims] at h; subst h; rfl
  | succ k ih =>
    obtain ⟨m, c', rfl, hb, hp⟩ := h
    have hm : m = n := by
      rcases hb with ⟨b', hb⟩ | ⟨b', hb⟩
      · injection hb with h1 _; exact h1.symm
      · cases hb
    subst hm
    simp only [applyPow, ih hp, Res.bind_ok, Res.pure_eq]

mutual
/-- If `c` is an instance of `p` under `σ`, then substituting `σ` in `p` gives `c`. -/
theorem subst_inst {σ : Env} (hσ : EnvConcrete σ) {p : Ty} (hp : SPat p) {c : Ty} (hc : Concrete c)
    (h : Inst σ p c) : substTy true σ p = .ok c ∧ (p.symbolic = false → c = p) := by
  cases p <;> simp only [SPat] at hp <;> simp only [Inst] at h <;> simp only [substTy]
  case prim b => subst h; exact ⟨rfl, fun _ => rfl⟩
  case leaf l => subst h; exact ⟨rfl, fun _ => rfl⟩
  case fixedDim n el =>
    obtain ⟨e, rfl, h⟩ := h
    obtain ⟨h1, h2⟩ := subst_inst hσ hp hc.2 h
    by_cases hs : (Ty.fixedDim n el).symbolic = true
    · rw [if_pos hs, h1, Res.bind_ok]
      exact ⟨rfl, fun hh => absurd (hs.symm.trans hh) (by simp)⟩
    · rw [if_neg hs, h2 (by simpa [Ty.symbolic] using hs)]
      exact ⟨rfl, fun _ => rfl⟩
  case varDim el =>
    obtain ⟨e, rfl, h⟩ := h
    obtain ⟨h1, h2⟩ := subst_inst hσ hp (c := e) hc h
    by_cases hs : (Ty.varDim el).symbolic = true
    · rw [if_pos hs, h1, Res.bind_ok]
      exact ⟨rfl, fun hh => absurd (hs.symm.trans hh) (by simp)⟩
    · rw [if_neg hs, h2 (by simpa [Ty.symbolic] using hs)]
      exact ⟨rfl, fun _ => rfl⟩
  case pointer el =>
    obtain ⟨e, rfl, h⟩ := h
    obtain ⟨h1, h2⟩ := subst_inst hσ hp (c := e) hc h
    by_cases hs : (Ty.pointer el).symbolic = true
    · rw [if_pos hs, h1, Res.bind_ok]
      exact ⟨rfl, fun hh => absurd (hs.symm.trans hh) (by simp)⟩
    · rw [if_neg hs, h2 (by simpa [Ty.symbolic] using hs)]
      exact ⟨rfl, fun _ => rfl⟩
  case option el =>
    obtain ⟨e, rfl, h⟩ := h
    obtain ⟨h1, h2⟩ := subst_inst hσ hp (c := e) hc.1 h
    by_cases hs : (Ty.option el).symbolic = true
    · rw [if_pos hs, h1, Res.bind_ok]
      exact ⟨rfl, fun hh => absurd (hs.symm.trans hh) (by simp)⟩
    · rw [if_neg hs, h2 (by simpa [Ty.symbolic] using hs)]
      exact ⟨rfl, fun _ => rfl⟩
  case tuple ts v =>
    obtain ⟨cs, rfl, hl, h⟩ := h
    obtain ⟨rfl, hp⟩ := hp
    have hl : cs.length = ts.length := by simpa using hl
    obtain ⟨h1, h2⟩ := substs_inst hσ hp hc.2 hl h
    by_cases hs : (Ty.tuple ts false).symbolic = true
    · rw [if_pos hs, h1, Res.bind_ok]
      exact ⟨rfl, fun hh => absurd (hs.symm.trans hh) (by simp)⟩
    · rw [if_neg hs, h2 (by simpa [Ty.symbolic] using hs)]
      exact ⟨rfl, fun _ => rfl⟩
  case struct ns ts v =>
    obtain ⟨ms, cs, rfl, hl, hpre, h⟩ := h
    obtain ⟨rfl, hn, hp⟩ := hp
    have hl : cs.length = ts.length := by simpa using hl
    have hnm : ns = ms := hpre.eq_of_length (by rw [hn, hc.2.1, hl])
    subst hnm
    obtain ⟨h1, h2⟩ := substs_inst hσ hp hc.2.2 hl h
    by_cases hs : (Ty.struct ns ts false).symbolic = true
    · rw [if_pos hs, h1, Res.bind_ok]
      exact ⟨rfl, fun hh => absurd (hs.symm.trans hh) (by simp)⟩
    · rw [if_neg hs, h2 (by simpa [Ty.symbolic] using hs)]
      exact ⟨rfl, fun _ => rfl⟩
  case typevar s =>
    obtain ⟨hs, hd⟩ := h
    have h0 : c.ndim = 0 := (concrete_ndim hc).2 hd
    simp [hs, h0, concrete_symbolic hc, Ty.symbolic]
  case typevarDim s el =>
    obtain ⟨e, h, hcs⟩ := h
    refine ⟨?_, fun hh => by simp [Ty.symbolic] at hh⟩
    rcases hcs with ⟨n, d, rfl, hs⟩ | ⟨d, rfl, hs⟩
    · obtain ⟨h1, -⟩ := subst_inst hσ hp hc.2 h
      have hsym := (hσ s _ hs).resolve_right (by rintro ⟨a, ha⟩; cases ha)
      simp [hs, Ty.ndim, hsym, h1, Res.bind_ok, Res.pure_eq]
    · obtain ⟨h1, -⟩ := subst_inst hσ hp (c := e) hc h
      have hsym := (hσ s _ hs).resolve_right (by rintro ⟨a, ha⟩; cases ha)
      simp [hs, Ty.ndim, hsym, h1, Res.bind_ok, Res.pure_eq]
  case powDimsym base x el =>
    obtain ⟨⟨n, b, rfl⟩, hp⟩ := hp
    obtain ⟨k, d, e, hx, hpow, h⟩ := h
    obtain ⟨h1, -⟩ := subst_inst hσ hp (concrete_powDims k hc hpow) h
    refine ⟨?_, fun hh => by simp [Ty.symbolic] at hh⟩
    simp only [hx, Res.bind_ok]
    cases k with
    | zero =>
      simp only [PowDims] at hpow
      subst hpow
      simpa using h1
    | succ k =>
      have h0 : ¬ ((k + 1 : Nat) : Int) = 0 := by omega
      have hneg : ¬ ((k + 1 : Nat) : Int) < 0 := by omega
      rw [if_neg h0, h1, Res.bind_ok, if_neg hneg]
      exact applyPow_powDims (k + 1) hpow
theorem substs_inst {σ : Env} (hσ : EnvConcrete σ) {ts : List Ty} (hp : SPats ts) {cs : List Ty}
    (hc : ConcreteAll cs) (hl : cs.length = ts.length) (h : InstPrefix σ ts cs) :
    substTys true σ ts = .ok cs ∧ (anySymbolic ts = false → cs = ts) := by
  cases ts with
  | nil =>
    have : cs = [] := by simpa using hl
    subst this; exact ⟨rfl, fun _ => rfl⟩
  | cons t ts =>
    cases cs with
    | nil => simp at hl
    | cons c cs =>
      obtain ⟨h1, h2⟩ := subst_inst hσ hp.1 hc.1 h.1
      obtain ⟨h3, h4⟩ := substs_inst hσ hp.2 hc.2 (by simpa using hl) h.2
      refine ⟨by simp only [substTys, h1, h3, Res.bind_ok, Res.pure_eq], fun hs => ?_⟩
      simp only [anySymbolic, Bool.or_eq_false_iff] at hs
      rw [h2 hs.1, h4 hs.2]
end

/-- **C37.**  When a pattern matches a concrete type, substituting the bindings of the match into the pattern gives
    exactly that type. -/
theorem match_subst_partial (same : List Nat → Bool) {p c : Ty} (hp : SPat p) (hc : Concrete c) {σ' : Env}
    (h : matchFresh same p c = .ok (true, σ')) : substTy true σ' p = .ok c := by
  obtain ⟨-, hi, he⟩ := match_sound_partial same (spat_pok hp) hc h
  exact (subst_inst (he envConcrete_empty) hp hc hi).1

/-- A function signature without keyword arguments: the same. -/
theorem match_subst_callable_partial (same : List Nat → Bool) {r p c : Ty} (hr : SPat r) (hp : SPat p) (hc : Concrete c)
    {σ' : Env} (h : matchFresh same (.callable r p (.struct [] [] false)) c = .ok (true, σ')) :
    substTy true σ' (.callable r p (.struct [] [] false)) = .ok c := by
  have hpk : POk (.callable r p (.struct [] [] false)) := ⟨spat_pok hr, spat_pok hp, trivial⟩
  obtain ⟨-, hi, he⟩ := match_sound_partial same hpk hc h
  simp only [Inst] at hi
  obtain ⟨r', p', k', rfl, h1, h2, ms, cs, rfl, hl, -, -⟩ := hi
  have hcs : cs = [] := by simpa using hl
  subst hcs
  have hms : ms = [] := by simpa using hc.2.2.2.1
  subst hms
  have e1 := (subst_inst (he envConcrete_empty) hr hc.1 h1).1
  have e2 := (subst_inst (he envConcrete_empty) hp hc.2.1 h2).1
  simp only [substTy, e1, e2, Res.bind_ok, Res.pure_eq]

/-! ### Ellipsis -/

mutual
/-- Matching such a pattern never changes a binding that exists. -/
theorem match_keeps (same : List Nat → Bool) {p : Ty} (hp : SPat p) {c : Ty} (hc : Concrete c) {σ : Env} {b : Bool} {σ' : Env}
    (h : matchTy same p c σ = .ok (b, σ')) : ∀ s t, σ s = some t → σ' s = some t := by
  have setk : ∀ {σ : Env} {s : String} (u : Ty), σ s = none → ∀ x t, σ x = some t → (σ.set s u) x = some t := by
    intro σ s u hs x t hx
    unfold Env.set
    by_cases hxs : x = s
    · subst hxs; rw [hs] at hx; cases hx
    · rw [if_neg hxs]; exact hx
  cases p <;> simp only [SPat] at hp <;> simp only [matchTy] at h
  case prim x => injection h with h; injection h with _ h; subst h; exact fun _ _ h => h
  case leaf x => injection h with h; injection h with _ h; subst h; exact fun _ _ h => h
  case fixedDim n el =>
    by_cases hb : (same [] && tyEq (.fixedDim n el) c) = true
    · rw [if_pos hb] at h; injection h with h; injection h with _ h; subst h; exact fun _ _ h => h
    rw [if_neg hb] at h
    cases c <;> simp only at h
    case fixedDim m el' =>
      by_cases hn : n = m
      · rw [if_pos hn] at h; exact match_keeps _ hp hc.2 h
      · rw [if_neg hn] at h; injection h with h; injection h with _ h; subst h; exact fun _ _ h => h
    all_goals injection h with h; injection h with _ h; subst h; exact fun _ _ h => h
  case varDim el =>
    by_cases hb : (same [] && tyEq (.varDim el) c) = true
    · rw [if_pos hb] at h; injection h with h; injection h with _ h; subst h; exact fun _ _ h => h
    rw [if_neg hb] at h
    cases c <;> simp only at h
    case varDim el' => exact match_keeps _ hp (c := el') hc h
    all_goals injection h with h; injection h with _ h; subst h; exact fun _ _ h => h
  case pointer el =>
    by_cases hb : (same [] && tyEq (.pointer el) c) = true
    · rw [if_pos hb] at h; injection h with h; injection h with _ h; subst h; exact fun _ _ h => h
    rw [if_neg hb] at h
    cases c <;> simp only at h
    case pointer el' => exact match_keeps _ hp (c := el') hc h
    all_goals injection h with h; injection h with _ h; subst h; exact fun _ _ h => h
  case option el =>
    by_cases hb : (same [] && tyEq (.option el) c) = true
    · rw [if_pos hb] at h; injection h with h; injection h with _ h; subst h; exact fun _ _ h => h
    rw [if_neg hb] at h
    cases c <;> simp only at h
    case option el' => exact match_keeps _ hp hc.1 h
    all_goals injection h with h; injection h with _ h; subst h; exact fun _ _ h => h
  case tuple ts v =>
    by_cases hb : (same [] && tyEq (.tuple ts v) c) = true
    · rw [if_pos hb] at h; injection h with h; injection h with _ h; subst h; exact fun _ _ h => h
    rw [if_neg hb] at h
    cases c <;> simp only at h
    case tuple cs w =>
      by_cases hn : countsMatch ts.length v cs.length w = true
      · rw [if_pos hn] at h; exact matchs_keeps _ hp.2 hc.2 h
      · rw [if_neg hn] at h; injection h with h; injection h with _ h; subst h; exact fun _ _ h => h
    all_goals injection h with h; injection h with _ h; subst h; exact fun _ _ h => h
  case struct ns ts v =>
    by_cases hb : (same [] && tyEq (.struct ns ts v) c) = true
    · rw [if_pos hb] at h; injection h with h; injection h with _ h; subst h; exact fun _ _ h => h
    rw [if_neg hb] at h
    cases c <;> simp only at h
    case struct ms cs w =>
      by_cases hn : countsMatch ts.length v cs.length w = true
      · rw [if_pos hn] at h
        cases hpn : prefixNames ns ms with
        | ok q =>
          rw [hpn] at h
          cases q with
          | true => exact matchs_keeps _ hp.2.2 hc.2.2 h
          | false => injection h with h; injection h with _ h; subst h; exact fun _ _ h => h
        | throw e => rw [hpn] at h; cases h
        | ub => rw [hpn] at h; cases h
      · rw [if_neg hn] at h; injection h with h; injection h with _ h; subst h; exact fun _ _ h => h
    all_goals injection h with h; injection h with _ h; subst h; exact fun _ _ h => h
  case typevar s =>
    by_cases hb : (same [] && tyEq (.typevar s) c) = true
    · rw [if_pos hb] at h; injection h with h; injection h with _ h; subst h; exact fun _ _ h => h
    rw [if_neg hb] at h
    by_cases hd : c.ndim > 0 ∨ tyEq c (.kind .any) = true
    · rw [if_pos hd] at h; injection h with h; injection h with _ h; subst h; exact fun _ _ h => h
    rw [if_neg hd] at h
    cases hs : σ s with
    | none => rw [hs] at h; injection h with h; injection h with _ h; subst h; exact setk c hs
    | some t => rw [hs] at h; injection h with h; injection h with _ h; subst h; exact fun _ _ h => h
  case typevarDim s el =>
    by_cases hb : (same [] && tyEq (.typevarDim s el) c) = true
    · rw [if_pos hb] at h; injection h with h; injection h with _ h; subst h; exact fun _ _ h => h
    rw [if_neg hb] at h
    by_cases hd : c.isScalar = true
    · rw [if_pos hd] at h; injection h with h; injection h with _ h; subst h; exact fun _ _ h => h
    rw [if_neg hd] at h
    have hd : IsDim c := by
      by_contra hnd
      exact hd ((concrete_isScalar hc).2 hnd)
    obtain ⟨e, hat, hce⟩ : ∃ e, c.atDim 1 = .ok e ∧ Concrete e := by
      rcases concrete_isDim hd with ⟨n, e, rfl⟩ | ⟨e, rfl⟩
      · exact ⟨e, by cases e <;> rfl, hc.2⟩
      · exact ⟨e, by cases e <;> rfl, hc⟩
    cases hs : σ s with
    | none =>
      rw [hs] at h
      simp only [hat, Res.bind_ok] at h
      exact fun x t hx => match_keeps _ hp hce h x t (setk c hs x t hx)
    | some t =>
      rw [hs] at h
      simp only at h
      by_cases hi : sameDimId c t = true
      · rw [if_pos hi, hat, Res.bind_ok] at h
        exact match_keeps _ hp hce h
      · rw [if_neg hi] at h; injection h with h; injection h with _ h; subst h; exact fun _ _ h => h
  case powDimsym base x el =>
    obtain ⟨⟨n, bb, rfl⟩, hp⟩ := hp
    by_cases hb : (same [] && tyEq (.powDimsym (.fixedDim n bb) x el) c) = true
    · rw [if_pos hb] at h; injection h with h; injection h with _ h; subst h; exact fun _ _ h => h
    rw [if_neg hb] at h
    have hrest : (match powExponent σ x ((c.ndim : Int) - (el.ndim : Int)) with
        | (none, σ) => Res.ok (false, σ)
        | (some n_1, σ) =>
          if n_1 = 0 then matchTy (fun q => same (0 :: q)) el c σ
          else if n_1 < 0 then Res.ok (false, σ)
          else
            match powBase σ (.fixedDim n bb) c with
            | (none, σ) => Res.ok (false, σ)
            | (some b, σ) =>
              match stripPow b n_1.toNat c with
              | none => Res.ok (false, σ)
              | some c' => matchTy (fun q => same (0 :: q)) el c' σ) = .ok (b, σ') →
        ∀ s t, σ s = some t → σ' s = some t := by
      intro h
      obtain ⟨o, τ, hpe, hk⟩ : ∃ o τ, powExponent σ x ((c.ndim : Int) - (el.ndim : Int)) = (o, τ) ∧
          ∀ s t, σ s = some t → τ s = some t := by
        unfold powExponent
        cases hs : σ x with
        | none => exact ⟨_, _, rfl, setk _ hs⟩
        | some t => cases t <;> exact ⟨_, _, rfl, fun _ _ h => h⟩
      rw [hpe] at h
      cases o with
      | none => injection h with h; injection h with _ h; subst h; exact hk
      | some m =>
        simp only at h
        by_cases h0 : m = 0
        · rw [if_pos h0] at h
          exact fun s t hs => match_keeps _ hp hc h s t (hk s t hs)
        rw [if_neg h0] at h
        by_cases h1 : m < 0
        · rw [if_pos h1] at h; injection h with h; injection h with _ h; subst h; exact hk
        rw [if_neg h1] at h
        simp only [powBase] at h
        cases hst : stripPow (.fixedDim n bb) m.toNat c with
        | none => rw [hst] at h; injection h with h; injection h with _ h; subst h; exact hk
        | some c' =>
          rw [hst] at h
          have hce := concrete_powDims _ hc (stripPow_powDims (.inl ⟨n, bb, rfl⟩) hc hst)
          exact fun s t hs => match_keeps _ hp hce h s t (hk s t hs)
    have hz : (if c.ndim = 0 then
          if el.ndim = 0 then
            match σ x with
            | none => matchTy (fun q => same (0 :: q)) el c (σ.set x (.fixedDim 0 (.prim .void)))
            | some (.fixedDim n _) => if n ≠ 0 then .ok (false, σ) else matchTy (fun q => same (0 :: q)) el c σ
            | some _ => .ok (false, σ)
          else .ok (false, σ)
        else Res.ok (false, σ)) = .ok (b, σ') → ∀ s t, σ s = some t → σ' s = some t := by
      intro h
      by_cases h0 : c.ndim = 0
      · rw [if_pos h0] at h
        by_cases h1 : el.ndim = 0
        · rw [if_pos h1] at h
          cases hs : σ x with
          | none =>
            rw [hs] at h
            exact fun y t hy => match_keeps _ hp hc h y t (setk _ hs y t hy)
          | some t =>
            rw [hs] at h
            cases t <;> simp only at h
            case fixedDim m d =>
              by_cases hm : m ≠ 0
              · rw [if_pos hm] at h; injection h with h; injection h with _ h; subst h; exact fun _ _ h => h
              · rw [if_neg hm] at h; exact match_keeps _ hp hc h
            all_goals injection h with h; injection h with _ h; subst h; exact fun _ _ h => h
        · rw [if_neg h1] at h; injection h with h; injection h with _ h; subst h; exact fun _ _ h => h
      · rw [if_neg h0] at h; injection h with h; injection h with _ h; subst h; exact fun _ _ h => h
    by_cases h0 : c.ndim = 0
    · cases c <;> first | (cases hc; done) | (simp only [if_pos h0] at h; simp only [if_pos h0] at hz; exact hz h)
    · cases c <;> first | (cases hc; done) | (simp only [if_neg h0] at h; exact hrest h)
theorem matchs_keeps (same : List Nat → Bool) {ts : List Ty} (hp : SPats ts) {cs : List Ty} (hc : ConcreteAll cs) {σ : Env} {b : Bool}
    {σ' : Env} (h : matchTys same ts cs σ = .ok (b, σ')) : ∀ s t, σ s = some t → σ' s = some t := by
  cases ts with
  | nil => simp only [matchTys] at h; injection h with h; injection h with _ h; subst h; exact fun _ _ h => h
  | cons t ts =>
    cases cs with
    | nil => simp only [matchTys] at h; cases h
    | cons c cs =>
      simp only [matchTys, Res.bind_eq_ok] at h
      obtain ⟨⟨a, τ⟩, h1, h⟩ := h
      have k1 := match_keeps _ hp.1 hc.1 h1
      cases a with
      | true => exact fun s t hs => matchs_keeps _ hp.2 hc.2 h s t (k1 s t hs)
      | false => injection h with h; injection h with _ h; subst h; exact k1
end

theorem applyFragment_addDims {ds : List CDim} (h : ∀ d ∈ ds, d.NonNeg) (e : Ty) :
    applyFragment (ds.map tagOf) e = addDims ds e := by
  induction ds with
  | nil => rfl
  | cons d ds ih =>
    have ih := ih (fun d hd => h d (List.mem_cons_of_mem _ hd))
    have hd := h d (List.mem_cons_self ..)
    cases d with
    | fixed n =>
      simp only [CDim.NonNeg] at hd
      simp only [List.map_cons, tagOf, applyFragment, addDims, ih]
      rw [if_neg (by omega), if_neg (by omega)]
    | var => simp only [List.map_cons, tagOf, applyFragment, addDims, ih]; rfl

/-- **C37.**  The same for a pattern with a leading named ellipsis: matching and substituting gives the matched
    type. -/
theorem match_subst_ellipsis_partial (same : List Nat → Bool) {s : String} (hs : s ≠ "") {el c : Ty} (hp : SPat el)
    (hc : Concrete c) {σ' : Env} (h : matchFresh same (.ellipsis s el) c = .ok (true, σ')) :
    substTy true σ' (.ellipsis s el) = .ok c := by
  have key : ∀ {ds : List CDim} {e : Ty}, c = addDims ds e →
      matchTy (fun q => same (0 :: q)) el e (Env.empty.set s (.dimFragment (ds.map tagOf))) = .ok (true, σ') →
      substTy true σ' (.ellipsis s el) = .ok c := by
    intro ds e hcd h
    have hce : Concrete e := concrete_addDims ds (hcd ▸ hc)
    obtain ⟨-, hi, he⟩ := match_sound_partial _ (spat_pok hp) hce h
    have e1 := (subst_inst (he (envConcrete_empty.set s (.inr ⟨_, rfl⟩))) hp hce hi).1
    have e2 := match_keeps _ hp hce h s _ (Env.set_self _ _ _)
    simp only [substTy, if_neg hs, e2, e1, Res.bind_ok, Res.pure_eq]
    rw [applyFragment_addDims (addDims_nonneg ds (hcd ▸ hc)), hcd]
  unfold matchFresh at h
  simp only [matchTy] at h
  replace h := shortcut h
  rcases h with ⟨rfl, -⟩ | h
  · cases hc
  rw [if_neg (by simp [concrete_not_any hc])] at h
  by_cases h0 : c.ndim = 0
  · rw [if_pos h0, if_neg hs] at h
    exact key (ds := []) (e := c) rfl h
  · rw [if_neg h0] at h
    have hd : IsDim c := by
      by_contra hnd
      exact h0 ((concrete_ndim hc).2 hnd)
    have h' : (if c.ndim ≥ el.ndim then
        if s = "" then do
          let c' ← c.atDim (c.ndim - el.ndim)
          matchTy (fun q => same (0 :: q)) el c' Env.empty
        else do
          let frag ← taggedDims (c.ndim - el.ndim) c
          let c' ← c.atDim (c.ndim - el.ndim)
          matchTy (fun q => same (0 :: q)) el c' (Env.empty.set s (.dimFragment frag.1))
        else Res.ok (false, Env.empty)) = .ok (true, σ') := by
      rcases concrete_isDim hd with ⟨n, e, rfl⟩ | ⟨e, rfl⟩ <;> exact h
    clear h
    by_cases hge : c.ndim ≥ el.ndim
    · rw [if_pos hge, if_neg hs] at h'
      obtain ⟨ds, e, hcd, hl, hat, -⟩ := split_dims (c.ndim - el.ndim) hc (by omega)
      have ht : taggedDims (c.ndim - el.ndim) c = .ok (ds.map tagOf, e) := by
        have := taggedDims_add ds [] e
        rw [List.append_nil, hl, ← hcd] at this
        exact this
      rw [ht, Res.bind_ok, hat, Res.bind_ok] at h'
      exact key hcd h'
    · rw [if_neg hge] at h'; cases h'

/-! ### Examples -/

/-- A worked match: `(N * T, ?T)` against `(3 * int32, ?int32)`, and substituting back. -/
example : ∃ σ', matchFresh (fun _ => false)
      (.tuple [.typevarDim "N" (.typevar "T"), .option (.typevar "T")] false)
      (.tuple [.fixedDim 3 (.prim (.int .w32)), .option (.prim (.int .w32))] false) = .ok (true, σ') ∧
    σ' "T" = some (.prim (.int .w32)) ∧
    substTy true σ' (.tuple [.typevarDim "N" (.typevar "T"), .option (.typevar "T")] false) =
      .ok (.tuple [.fixedDim 3 (.prim (.int .w32)), .option (.prim (.int .w32))] false) :=
  ⟨_, rfl, rfl, rfl⟩

/-- the hypotheses of `match_iff_partial`, `match_subst_partial` for it -/
example : SPat (.tuple [.typevarDim "N" (.typevar "T"), .option (.typevar "T")] false) ∧
    CPat (.tuple [.typevarDim "N" (.typevar "T"), .option (.typevar "T")] false) ∧
    NamesOk (.tuple [.typevarDim "N" (.typevar "T"), .option (.typevar "T")] false) ∧
    Concrete (.tuple [.fixedDim 3 (.prim (.int .w32)), .option (.prim (.int .w32))] false) := by
  simp [SPat, SPats, CPat, CPats, NamesOk, NamesOks, Concrete, ConcreteAll]

/-- a type variable used twice for different types: no match -/
example : ∃ σ', matchFresh (fun _ => false) (.tuple [.typevar "T", .typevar "T"] false)
      (.tuple [.prim (.int .w32), .prim .bool] false) = .ok (false, σ') := ⟨_, rfl⟩

/-- `Dims... * T` against `2 * var * bool` -/
example : ∃ σ', matchFresh (fun _ => false) (.ellipsis "Dims" (.typevar "T"))
      (.fixedDim 2 (.varDim (.prim .bool))) = .ok (true, σ') ∧ σ' "Dims" = some (.dimFragment [2, -1]) ∧
    substTy true σ' (.ellipsis "Dims" (.typevar "T")) = .ok (.fixedDim 2 (.varDim (.prim .bool))) :=
  ⟨_, rfl, rfl, rfl⟩

/-- a broadcasting signature: `(Dims... * T, Dims... * T)` against `(2 * 3 * bool, 3 * bool)`;
    the fragment is `2 * 3` -/
example : ∃ σ', matchFresh (fun _ => false)
      (.tuple [.ellipsis "Dims" (.typevar "T"), .ellipsis "Dims" (.typevar "T")] false)
      (.tuple [.fixedDim 2 (.fixedDim 3 (.prim .bool)), .fixedDim 3 (.prim .bool)] false) = .ok (true, σ') ∧
    σ' "Dims" = some (.dimFragment [2, 3]) := ⟨_, rfl, rfl⟩

/-- a power: `3 ** N * T` against `3 * 3 * bool` -/
example : ∃ σ', matchFresh (fun _ => false) (.powDimsym (.fixedDim 3 (.prim .void)) "N" (.typevar "T"))
      (.fixedDim 3 (.fixedDim 3 (.prim .bool))) = .ok (true, σ') ∧
    substTy true σ' (.powDimsym (.fixedDim 3 (.prim .void)) "N" (.typevar "T")) =
      .ok (.fixedDim 3 (.fixedDim 3 (.prim .bool))) := ⟨_, rfl, rfl⟩

/-! ### Violations -/

/-- Matching against `Dim` throws away the bindings made below it: `(Dim * T, T)` matches
    `(3 * int32, bool)`, although no type is assigned to `T` that would make it an instance. -/
theorem dim_kind_forgets_bindings :
    (∃ σ', matchFresh (fun _ => false) (.tuple [.dimKind (.typevar "T"), .typevar "T"] false)
        (.tuple [.fixedDim 3 (.prim (.int .w32)), .prim .bool] false) = .ok (true, σ')) ∧
    ¬ ∃ σ, Inst σ (.tuple [.dimKind (.typevar "T"), .typevar "T"] false)
        (.tuple [.fixedDim 3 (.prim (.int .w32)), .prim .bool] false) := by
  refine ⟨⟨_, rfl⟩, ?_⟩
  rintro ⟨σ, h⟩
  simp only [Inst, InstPrefix, Ty.tuple.injEq] at h
  obtain ⟨cs, ⟨rfl, -⟩, -, h⟩ := h
  simp only [InstPrefix] at h
  obtain ⟨⟨e, he, h1, -⟩, ⟨h2, -⟩, -⟩ := h
  simp at he
  subst he
  rw [h1] at h2
  simp at h2

/-- A `var` power matches dimensions that are not `var`: `var ** N * Any` accepts `3 * int32`. -/
theorem pow_var_skips_dims :
    ∃ σ', matchFresh (fun _ => false) (.powDimsym (.varDim (.prim .void)) "N" (.kind .any))
        (.fixedDim 3 (.prim (.int .w32))) = .ok (true, σ') ∧
      σ' "N" = some (.fixedDim 1 (.prim .void)) ∧
      substTy true σ' (.powDimsym (.varDim (.prim .void)) "N" (.prim (.int .w32))) = .ok (.varDim (.prim (.int .w32))) :=
  ⟨_, rfl, rfl, rfl⟩

/-- Growing a dimension fragment reads uninitialised memory: in `(D... * T, D... * T)` the second argument may not
    have more dimensions than the first. -/
theorem ellipsis_growth_uninitialised :
    matchFresh (fun _ => false)
      (.tuple [.ellipsis "D" (.typevar "T"), .ellipsis "D" (.typevar "T")] false)
      (.tuple [.fixedDim 3 (.prim .bool), .fixedDim 2 (.fixedDim 3 (.prim .bool))] false) = .ub := rfl

/-- A dimension variable matches an option around a dimension; substituting the binding back is refused. -/
theorem typevar_dim_matches_option :
    ∃ σ', matchFresh (fun _ => false) (.typevarDim "N" (.typevar "T")) (.option (.fixedDim 3 (.prim .bool))) =
        .ok (true, σ') ∧
      substTy true σ' (.typevarDim "N" (.typevar "T")) = .throw .invalidArg := ⟨_, rfl, rfl⟩

/-- The kind `Bytes` does not contain the fixed-size bytes types, while `String` contains the fixed-size strings. -/
theorem bytes_kind_misses_fixed_bytes :
    (∀ n a same σ, matchTy same (.kind .bytes) (.leaf (.fixedBytes n a)) σ = .ok (false, σ)) ∧
    ∀ n e same σ, matchTy same (.kind .string) (.leaf (.fixedString n e)) σ = .ok (true, σ) := by
  constructor
  · intro n a same σ; simp [matchTy, matchKind, Ty.baseIs, tyEq]
  · intro n e same σ; simp [matchTy, matchKind, tyEq]

/-- Substitution drops the `...` of a variadic tuple or struct. -/
theorem subst_drops_variadic (concrete : Bool) (σ : Env) (ts rs : List Ty) (h : substTys concrete σ ts = .ok rs) :
    substTy concrete σ (.tuple ts true) = .ok (.tuple rs false) := by
  simp [substTy, Ty.symbolic, h, Res.bind_ok, Res.pure_eq]

example : substTy false Env.empty (.tuple [.typevar "T"] true) = .ok (.tuple [.typevar "T"] false) := rfl

/-- Substituting into a callable with keyword arguments dereferences a null pointer. -/
theorem subst_callable_keywords (concrete : Bool) (σ : Env) (r p : Ty) (n : String) (t : Ty) (ns : List String)
    (ts : List Ty) (v : Bool) :
    substTy concrete σ (.callable r p (.struct (n :: ns) (t :: ts) v)) = .ub := by
  simp only [substTy]

/-- A callable inside another type hides its variables from substitution: with `T` bound to `bool`,
    `?((T) -> T)` is returned unchanged and counts as substituted. -/
theorem subst_callable_inside (concrete : Bool) (σ : Env) (r p k : Ty) :
    substTy concrete σ (.option (.callable r p k)) = .ok (.option (.callable r p k)) := by
  simp [substTy, Ty.symbolic]

/-- When the candidate itself contains variables, whether a binding is made depends on whether the pattern and the
    candidate happen to be the same object. -/
theorem binding_depends_on_identity :
    matchFresh (fun _ => true) (.tuple [.typevar "T", .typevar "T"] false)
        (.tuple [.typevar "T", .prim .bool] false) ≠
      matchFresh (fun _ => false) (.tuple [.typevar "T", .typevar "T"] false)
        (.tuple [.typevar "T", .prim .bool] false) := by
  intro h
  have h1 : matchFresh (fun _ => true) (.tuple [.typevar "T", .typevar "T"] false)
        (.tuple [.typevar "T", .prim .bool] false) = .ok (true, Env.empty.set "T" (.prim .bool)) := rfl
  have h2 : matchFresh (fun _ => false) (.tuple [.typevar "T", .typevar "T"] false)
        (.tuple [.typevar "T", .prim .bool] false) = .ok (false, Env.empty.set "T" (.typevar "T")) := rfl
  rw [h1, h2] at h
  simp at h

/-- A failed match leaves the bindings it made in the caller's map. -/
theorem failed_match_leaves_bindings :
    ∃ σ', matchTy (fun _ => false) (.tuple [.typevar "T", .prim .bool] false)
        (.tuple [.prim (.int .w32), .prim (.int .w32)] false) Env.empty = .ok (false, σ') ∧
      σ' "T" = some (.prim (.int .w32)) := ⟨_, rfl, rfl⟩

end Dynd
