import Verif.Model.Call
import Verif.Props.RecordProps
import Mathlib.Data.List.Perm.Subperm
/-
Binding of the arguments of a call to the parameters of a callable (C90).
-/
namespace Dynd

section
variable {T A V : Type}

/-- `n` names the keyword parameter number `k` of the signature (the first one of that name). -/
def IsKwd (sig : CallSig T) (n : String) (k : Nat) : Prop :=
  (∃ t, sig.kwds[k]? = some (t, n)) ∧ ∀ j < k, ∀ t, sig.kwds[j]? ≠ some (t, n)

/-- `n` is not the name of a keyword parameter. -/
def NotKwd (sig : CallSig T) (n : String) : Prop := ∀ (k : Nat) t, sig.kwds[k]? ≠ some (t, n)

/-- The positional arguments proper, and the extra ones, which stand for the first keyword parameters. -/
def positionals (sig : CallSig T) (args : List A) : List A := if sig.posVariadic then args else args.take sig.pos.length
/-- See `positionals`. -/
def extras (sig : CallSig T) (args : List A) : List A := if sig.posVariadic then [] else args.drop sig.pos.length

/-- Successive matching of (pattern, type) pairs, each with the type variables left by the one before. -/
inductive MatchAll (ops : CallOps T A V) : List (T × T) → V → V → Prop where
  | nil (v : V) : MatchAll ops [] v v
  | cons {p c : T} {l : List (T × T)} {v v' w : V} (h : ops.matchTy p c v = .ok (true, v')) (hl : MatchAll ops l v' w) :
      MatchAll ops ((p, c) :: l) v w

theorem MatchAll.append {ops : CallOps T A V} {l m : List (T × T)} {u v w : V} (h : MatchAll ops l u v)
    (h' : MatchAll ops m v w) : MatchAll ops (l ++ m) u w := by
  induction h with
  | nil => exact h'
  | cons h1 _ ih => exact .cons h1 (ih h')

theorem MatchAll.split {ops : CallOps T A V} {l m : List (T × T)} {u w : V} (h : MatchAll ops (l ++ m) u w) :
    ∃ v, MatchAll ops l u v ∧ MatchAll ops m v w := by
  induction l generalizing u with
  | nil => exact ⟨u, .nil u, h⟩
  | cons x l ih =>
    cases h with
    | cons h1 h2 =>
      obtain ⟨v, ha, hb⟩ := ih h2
      exact ⟨v, .cons h1 ha, hb⟩

/-- The patterns the positional arguments are matched against (a variadic callable checks none of them). -/
def posPairs (ops : CallOps T A V) (sig : CallSig T) (args : List A) : List (T × T) :=
  if sig.posVariadic then [] else sig.pos.zip (args.map ops.typeOf)

/-- The pattern a keyword argument is matched against: the keyword's type, without the option. -/
inductive KwPairs (ops : CallOps T A V) (sig : CallSig T) : List (String × A) → List (T × T) → Prop where
  | nil : KwPairs ops sig [] []
  | special {n : String} {a : A} {ks} {l} (h : NotKwd sig n) (hl : KwPairs ops sig ks l) :
      KwPairs ops sig ((n, a) :: ks) l
  | kwd {n : String} {a : A} {k : Nat} {t : T} {ks} {l} (h : IsKwd sig n k) (ht : sig.kwds[k]? = some (t, n))
      (hl : KwPairs ops sig ks l) :
      KwPairs ops sig ((n, a) :: ks) (((ops.optionValue t).getD t, ops.valueType (ops.typeOf a)) :: l)

/-- The destination a call asks for: the last of its `dst` / `dst_tp` keywords decides (unless the callable itself has
    a keyword parameter of that name). -/
inductive DstOf (ops : CallOps T A V) (sig : CallSig T) : List (String × A) → Option A → Option A → Prop where
  | nil (d : Option A) : DstOf ops sig [] d d
  | kwd {n : String} {a : A} {k : Nat} {ks} {d d'} (h : IsKwd sig n k) (hl : DstOf ops sig ks d d') :
      DstOf ops sig ((n, a) :: ks) d d'
  | dst {a : A} {ks} {d d'} (h : NotKwd sig "dst") (hl : DstOf ops sig ks (some a) d') :
      DstOf ops sig (("dst", a) :: ks) d d'
  | dstTp {a e : A} {ks} {d d'} (h : NotKwd sig "dst_tp") (he : ops.emptyOf a = .ok e)
      (hl : DstOf ops sig ks (some e) d') :
      DstOf ops sig (("dst_tp", a) :: ks) d d'

/-- The pair the destination is matched against, if one was given. -/
def dstPairs (ops : CallOps T A V) (sig : CallSig T) : Option A → List (T × T)
  | none => []
  | some d => [(sig.ret, ops.typeOf d)]

/-- What the caller passed for keyword parameter `k`: an extra positional, or a keyword of its name. -/
def Passed (sig : CallSig T) (args : List A) (kws : List (String × A)) (k : Nat) (a : A) : Prop :=
  (extras sig args)[k]? = some a ∨ ∃ n, IsKwd sig n k ∧ (n, a) ∈ kws

/-- No keyword parameter receives two values. -/
def NoTwice (sig : CallSig T) (args : List A) (kws : List (String × A)) : Prop :=
  (∀ n a k, (n, a) ∈ kws → IsKwd sig n k → (extras sig args).length ≤ k) ∧
  kws.Pairwise fun x y => ∀ k, ¬ (IsKwd sig x.1 k ∧ IsKwd sig y.1 k)

/-- The number of arguments fits the signature. -/
def ArityOk (sig : CallSig T) (args : List A) : Prop :=
  sig.posVariadic = true ∨ (sig.pos.length ≤ args.length ∧
    (sig.kwdVariadic = true ∨ args.length ≤ sig.pos.length + sig.kwds.length))

theorem kwdIndex_some {sig : CallSig T} {n : String} {k : Nat} : kwdIndex sig.kwds n = some k ↔ IsKwd sig n k := by
  unfold IsKwd
  generalize sig.kwds = l
  induction l generalizing k with
  | nil => simp [kwdIndex]
  | cons x l ih =>
    obtain ⟨t, m⟩ := x
    unfold kwdIndex
    by_cases h : m = n
    · subst h
      rw [if_pos rfl]
      constructor
      · intro hk
        cases hk
        exact ⟨⟨t, rfl⟩, fun j hj => absurd hj (Nat.not_lt_zero j)⟩
      · rintro ⟨-, h2⟩
        cases k with
        | zero => rfl
        | succ k => exact absurd rfl (h2 0 (Nat.succ_pos k) t)
    · rw [if_neg h]
      cases k with
      | zero =>
        constructor
        · intro hk
          cases hl : kwdIndex l n <;> simp [hl] at hk
        · rintro ⟨⟨t', h1⟩, -⟩
          simp only [List.getElem?_cons_zero, Option.some.injEq, Prod.mk.injEq] at h1
          exact absurd h1.2 h
      | succ k =>
        constructor
        · intro hk
          have : kwdIndex l n = some k := by
            cases hl : kwdIndex l n with
            | none => simp [hl] at hk
            | some j =>
              simp only [hl, Option.map_some, Option.some.injEq, Nat.add_right_cancel_iff] at hk
              rw [hk]
          obtain ⟨h1, h2⟩ := ih.1 this
          refine ⟨by simpa using h1, ?_⟩
          intro j hj t'
          cases j with
          | zero =>
            simp only [List.getElem?_cons_zero, ne_eq, Option.some.injEq, Prod.mk.injEq, not_and]
            exact fun _ => h
          | succ j => simpa using h2 j (Nat.lt_of_succ_lt_succ hj) t'
        · rintro ⟨h1, h2⟩
          rw [ih.2 ⟨by simpa using h1, fun j hj t' => by simpa using h2 (j + 1) (Nat.succ_lt_succ hj) t'⟩]
          rfl

theorem kwdIndex_none {sig : CallSig T} {n : String} : kwdIndex sig.kwds n = none ↔ NotKwd sig n := by
  unfold NotKwd
  generalize sig.kwds = l
  induction l with
  | nil => simp [kwdIndex]
  | cons x l ih =>
    obtain ⟨t, m⟩ := x
    unfold kwdIndex
    by_cases h : m = n
    · subst h
      rw [if_pos rfl]
      constructor
      · intro h; cases h
      · intro h
        exact absurd rfl (h 0 t)
    · rw [if_neg h, Option.map_eq_none_iff, ih]
      constructor
      · intro hn k t'
        cases k with
        | zero =>
          simp only [List.getElem?_cons_zero, ne_eq, Option.some.injEq, Prod.mk.injEq, not_and]
          exact fun _ => h
        | succ k => simpa using hn k t'
      · intro hn k t'
        simpa using hn (k + 1) t'

theorem IsKwd.lt {sig : CallSig T} {n : String} {k : Nat} (h : IsKwd sig n k) : k < sig.kwds.length := by
  obtain ⟨⟨t, ht⟩, -⟩ := h
  exact lt_of_some ht

theorem IsKwd.unique {sig : CallSig T} {n : String} {k j : Nat} (h : IsKwd sig n k) (h' : IsKwd sig n j) : k = j := by
  have a := kwdIndex_some.2 h
  have b := kwdIndex_some.2 h'
  rw [a] at b
  exact Option.some.inj b

theorem kwd_or_not (sig : CallSig T) (n : String) : (∃ k, IsKwd sig n k) ∨ NotKwd sig n := by
  cases h : kwdIndex sig.kwds n with
  | none => exact .inr (kwdIndex_none.1 h)
  | some k => exact .inl ⟨k, kwdIndex_some.1 h⟩

theorem checkArgs_ok (ops : CallOps T A V) (ts : List T) (as : List A) (h : ts.length ≤ as.length) (v w : V) :
    checkArgs ops ts (as.map some) v = .ok w ↔ MatchAll ops (ts.zip (as.map ops.typeOf)) v w := by
  induction ts generalizing as v with
  | nil =>
    simp only [checkArgs, Res.ok.injEq, List.zip_nil_left]
    constructor
    · rintro rfl; exact .nil _
    · intro h; cases h; rfl
  | cons t ts ih =>
    cases as with
    | nil => simp at h
    | cons a as =>
      simp only [List.map_cons, checkArgs, List.zip_cons_cons]
      rw [Res.bind_eq_ok]
      constructor
      · rintro ⟨⟨b, v'⟩, hm, hr⟩
        simp only at hr
        cases b with
        | false => simp at hr
        | true => exact .cons hm ((ih as (by simpa using h) v').1 (by simpa using hr))
      · intro hm
        cases hm with
        | cons h1 h2 => exact ⟨_, h1, by simpa using (ih as (by simpa using h) _).2 h2⟩

theorem readArgs_ok (as : List A) : readArgs (as.map some) = .ok () := by
  induction as with
  | nil => rfl
  | cons a as ih => exact ih

theorem putExtras_ok (xs : List (Option A)) (j : Nat) (slots : List (Option A)) (h : j + xs.length ≤ slots.length) :
    ∃ s, putExtras xs j slots = .ok s ∧ s.length = slots.length ∧
      ∀ k, s[k]? = if j ≤ k ∧ k < j + xs.length then xs[k - j]? else slots[k]? := by
  induction xs generalizing j slots with
  | nil =>
    refine ⟨slots, rfl, rfl, fun k => ?_⟩
    rw [if_neg]
    simp only [List.length_nil]; omega
  | cons x xs ih =>
    simp only [List.length_cons] at h
    obtain ⟨s, h1, h2, h3⟩ := ih (j + 1) (slots.set j x) (by simp only [List.length_set]; omega)
    refine ⟨s, ?_, by simpa using h2, fun k => ?_⟩
    · unfold putExtras
      rw [if_pos (by omega), h1]
    · rw [h3 k]
      by_cases hk : k = j
      · subst hk
        rw [if_neg (by omega), if_pos (by simp only [List.length_cons]; omega), Nat.sub_self, List.getElem?_set_self (by omega)]
        rfl
      · by_cases hk2 : j + 1 ≤ k ∧ k < j + 1 + xs.length
        · rw [if_pos hk2, if_pos (by simp only [List.length_cons]; omega)]
          have : k - j = (k - (j + 1)) + 1 := by omega
          rw [this, List.getElem?_cons_succ]
        · rw [if_neg hk2, if_neg (by simp only [List.length_cons]; omega), List.getElem?_set_ne (by omega)]

/-- The keyword arguments as the model receives them (none of the values null). -/
def kwArgs (ks : List (String × A)) : List (String × Option A) := ks.map fun p => (p.1, some p.2)

/-- What the keyword loop does with the slots. -/
structure KwSlots (sig : CallSig T) (ks : List (String × A)) (slots s : List (Option A)) : Prop where
  len : s.length = slots.length
  free : ∀ x ∈ ks, ∀ k, IsKwd sig x.1 k → slots[k]? = some none
  once : ks.Pairwise fun x y => ∀ k, ¬ (IsKwd sig x.1 k ∧ IsKwd sig y.1 k)
  given : ∀ n a k, (n, a) ∈ ks → IsKwd sig n k → s[k]? = some (some a)
  rest : ∀ k, (∀ x ∈ ks, ¬ IsKwd sig x.1 k) → s[k]? = slots[k]?

theorem bindKwds_sound (ops : CallOps T A V) (sig : CallSig T) (ks : List (String × A)) (slots s : List (Option A))
    (d d' : Option A) (v w : V) (h : bindKwds ops sig (kwArgs ks) slots d v = .ok (s, d', w)) :
    KwSlots sig ks slots s ∧ DstOf ops sig ks d d' ∧ ∃ l, KwPairs ops sig ks l ∧ MatchAll ops l v w := by
  induction ks generalizing slots d v with
  | nil =>
    simp only [kwArgs, List.map_nil, bindKwds, Res.ok.injEq, Prod.mk.injEq] at h
    obtain ⟨rfl, rfl, rfl⟩ := h
    exact ⟨⟨rfl, by simp, .nil, by simp, fun _ _ => rfl⟩, .nil _, [], .nil, .nil _⟩
  | cons x ks ih =>
    obtain ⟨n, a⟩ := x
    simp only [kwArgs, List.map_cons, bindKwds] at h
    cases hk : kwdIndex sig.kwds n with
    | none =>
      have hn := kwdIndex_none.1 hk
      have hno : ∀ k, ¬ IsKwd sig n k := fun k hi => by rw [kwdIndex_some.2 hi] at hk; cases hk
      rw [hk] at h
      simp only at h
      have lift : ∀ {d0}, (KwSlots sig ks slots s ∧ DstOf ops sig ks d0 d' ∧
          ∃ l, KwPairs ops sig ks l ∧ MatchAll ops l v w) → KwSlots sig ((n, a) :: ks) slots s ∧
          ∃ l, KwPairs ops sig ((n, a) :: ks) l ∧ MatchAll ops l v w := by
        rintro d0 ⟨hs, hd, l, hl, hm⟩
        refine ⟨⟨hs.len, ?_, ?_, ?_, ?_⟩, l, .special hn hl, hm⟩
        · intro y hy k hi
          rcases List.mem_cons.1 hy with rfl | hy
          · exact absurd hi (hno k)
          · exact hs.free y hy k hi
        · exact List.pairwise_cons.2 ⟨fun y _ k hh => hno k hh.1, hs.once⟩
        · intro m b k hb hi
          rcases List.mem_cons.1 hb with hb | hb
          · obtain ⟨rfl, rfl⟩ := Prod.mk.inj hb
            exact absurd hi (hno k)
          · exact hs.given m b k hb hi
        · exact fun k hh => hs.rest k fun y hy => hh y (List.mem_cons_of_mem _ hy)
      by_cases h1 : n = "dst_tp"
      · subst h1
        rw [if_pos rfl, Res.bind_eq_ok] at h
        obtain ⟨e, he, h⟩ := h
        have := ih slots (some e) v h
        exact ⟨(lift this).1, .dstTp hn he this.2.1, (lift this).2⟩
      · rw [if_neg h1] at h
        by_cases h2 : n = "dst"
        · subst h2
          rw [if_pos rfl] at h
          have := ih slots (some a) v h
          exact ⟨(lift this).1, .dst hn this.2.1, (lift this).2⟩
        · rw [if_neg h2] at h
          cases h
    | some k =>
      have hi := kwdIndex_some.1 hk
      obtain ⟨⟨t, ht⟩, -⟩ := id hi
      rw [hk] at h
      simp only [ht] at h
      cases hs : slots[k]? with
      | none => rw [hs] at h; cases h
      | some o =>
        cases o with
        | some _ => rw [hs] at h; cases h
        | none =>
          rw [hs] at h
          simp only at h
          rw [Res.bind_eq_ok] at h
          obtain ⟨⟨b, v'⟩, hm, h⟩ := h
          cases b with
          | false => simp at h
          | true =>
            simp only [if_true] at h
            obtain ⟨ks1, kd, l, kl, km⟩ := ih (slots.set k (some a)) d v' h
            have hfree : ∀ y ∈ ks, ¬ IsKwd sig y.1 k := fun y hy hyk => by
              have := ks1.free y hy k hyk
              rw [List.getElem?_set_self (lt_of_some hs)] at this
              cases this
            refine ⟨⟨by simpa using ks1.len, ?_, ?_, ?_, ?_⟩, .kwd hi kd, _, .kwd hi ht kl, .cons hm km⟩
            · intro y hy j hj
              rcases List.mem_cons.1 hy with rfl | hy
              · rw [← hi.unique hj]; exact hs
              · have hne : k ≠ j := fun e => hfree y hy (e ▸ hj)
                have := ks1.free y hy j hj
                rwa [List.getElem?_set_ne hne] at this
            · refine List.pairwise_cons.2 ⟨fun y hy j hh => ?_, ks1.once⟩
              have := hi.unique hh.1
              subst this
              exact hfree y hy hh.2
            · intro m b j hb hj
              rcases List.mem_cons.1 hb with hb | hb
              · obtain ⟨rfl, rfl⟩ := Prod.mk.inj hb
                rw [← hi.unique hj, ks1.rest k hfree, List.getElem?_set_self (lt_of_some hs)]
              · exact ks1.given m b j hb hj
            · intro j hj
              have hne : k ≠ j := fun e => hj (n, a) List.mem_cons_self (e ▸ hi)
              rw [ks1.rest j fun y hy => hj y (List.mem_cons_of_mem _ hy), List.getElem?_set_ne hne]

theorem bindKwds_complete (ops : CallOps T A V) (sig : CallSig T) (ks : List (String × A)) (slots : List (Option A))
    (d d' : Option A) (v w : V) (l : List (T × T)) (hf : ∀ x ∈ ks, ∀ k, IsKwd sig x.1 k → slots[k]? = some none)
    (ho : ks.Pairwise fun x y => ∀ k, ¬ (IsKwd sig x.1 k ∧ IsKwd sig y.1 k)) (hd : DstOf ops sig ks d d')
    (hl : KwPairs ops sig ks l) (hm : MatchAll ops l v w) :
    ∃ s, bindKwds ops sig (kwArgs ks) slots d v = .ok (s, d', w) := by
  induction ks generalizing slots d v l with
  | nil =>
    cases hd; cases hl; cases hm
    exact ⟨slots, rfl⟩
  | cons x ks ih =>
    obtain ⟨n, a⟩ := x
    rw [List.pairwise_cons] at ho
    simp only [kwArgs, List.map_cons, bindKwds]
    have hf' : ∀ x ∈ ks, ∀ k, IsKwd sig x.1 k → slots[k]? = some none :=
      fun x hx => hf x (List.mem_cons_of_mem _ hx)
    have notboth : ∀ {m : String} {k : Nat}, NotKwd sig m → IsKwd sig m k → False := by
      intro m k h1 h2
      have e := (kwdIndex_none.2 h1).symm.trans (kwdIndex_some.2 h2)
      cases e
    cases hl with
    | special hn hl =>
      rw [kwdIndex_none.2 hn]
      simp only
      cases hd with
      | kwd hi _ => exact (notboth hn hi).elim
      | dst _ hd' =>
        rw [if_neg (by decide), if_pos rfl]
        exact ih slots _ v _ hf' ho.2 hd' hl hm
      | dstTp _ he hd' =>
        rw [if_pos rfl, he]
        exact ih slots _ v _ hf' ho.2 hd' hl hm
    | kwd hi ht hl =>
      rename_i k t l
      have hd' : DstOf ops sig ks d d' := by
        cases hd with
        | kwd _ h => exact h
        | dst hn _ => exact (notboth hn hi).elim
        | dstTp hn _ _ => exact (notboth hn hi).elim
      cases hm with
      | cons hm1 hm2 =>
        have hs := hf (n, a) List.mem_cons_self k hi
        rw [kwdIndex_some.2 hi]
        simp only [hs, ht, hm1, Res.bind_ok, if_true]
        refine ih _ _ _ _ ?_ ho.2 hd' hl hm2
        intro x hx j hj
        rw [List.getElem?_set_ne (fun e : k = j => ho.1 x hx k ⟨hi, e ▸ hj⟩)]
        exact hf' x hx j hj

/-- Keyword parameter `k` is optional. -/
def IsOptional (ops : CallOps T A V) (sig : CallSig T) (k : Nat) : Prop :=
  ∃ t n, sig.kwds[k]? = some (t, n) ∧ (ops.optionValue t).isSome

theorem mem_optionKwdIndices_aux (ops : CallOps T A V) (l : List (T × String)) (i k : Nat) :
    k ∈ optionKwdIndices ops l i ↔ i ≤ k ∧ ∃ t n, l[k - i]? = some (t, n) ∧ (ops.optionValue t).isSome := by
  induction l generalizing i with
  | nil => simp [optionKwdIndices]
  | cons x l ih =>
    obtain ⟨t, n⟩ := x
    have key : k ∈ optionKwdIndices ops l (i + 1) ↔
        i < k ∧ ∃ t' n', ((t, n) :: l)[k - i]? = some (t', n') ∧ (ops.optionValue t').isSome := by
      rw [ih]
      constructor
      · rintro ⟨h1, h2⟩
        refine ⟨by omega, ?_⟩
        have : k - i = (k - (i + 1)) + 1 := by omega
        rw [this, List.getElem?_cons_succ]; exact h2
      · rintro ⟨h1, h2⟩
        refine ⟨by omega, ?_⟩
        have : k - i = (k - (i + 1)) + 1 := by omega
        rw [this, List.getElem?_cons_succ] at h2; exact h2
    unfold optionKwdIndices
    by_cases ho : (ops.optionValue t).isSome = true
    · rw [if_pos ho, List.mem_cons, key]
      constructor
      · rintro (rfl | ⟨h1, h2⟩)
        · exact ⟨Nat.le_refl _, t, n, by simp, ho⟩
        · exact ⟨Nat.le_of_lt h1, h2⟩
      · rintro ⟨h1, h2⟩
        rcases Nat.lt_or_ge i k with h | h
        · exact .inr ⟨h, h2⟩
        · exact .inl (by omega)
    · rw [if_neg ho, key]
      constructor
      · rintro ⟨h1, h2⟩
        exact ⟨Nat.le_of_lt h1, h2⟩
      · rintro ⟨h1, t', n', h2, h3⟩
        refine ⟨?_, t', n', h2, h3⟩
        rcases Nat.lt_or_ge i k with h | h
        · exact h
        · have : k - i = 0 := by omega
          rw [this, List.getElem?_cons_zero, Option.some.injEq, Prod.mk.injEq] at h2
          obtain ⟨rfl, rfl⟩ := h2
          exact absurd h3 ho

theorem mem_optionKwdIndices (ops : CallOps T A V) (sig : CallSig T) (k : Nat) :
    k ∈ optionKwdIndices ops sig.kwds 0 ↔ IsOptional ops sig k := by
  rw [mem_optionKwdIndices_aux]
  simp [IsOptional]

theorem optionKwdIndices_nodup (ops : CallOps T A V) (l : List (T × String)) (i : Nat) :
    (optionKwdIndices ops l i).Nodup := by
  induction l generalizing i with
  | nil => exact List.nodup_nil
  | cons x l ih =>
    obtain ⟨t, n⟩ := x
    unfold optionKwdIndices
    by_cases ho : (ops.optionValue t).isSome = true
    · rw [if_pos ho, List.nodup_cons]
      refine ⟨fun h => ?_, ih _⟩
      rw [mem_optionKwdIndices_aux] at h
      omega
    · rw [if_neg ho]; exact ih _

/-- The slots among `js` still empty. -/
def emptyAmong (slots : List (Option A)) (js : List Nat) : List Nat :=
  js.filter fun j => match slots[j]? with | some none => true | _ => false

theorem mem_emptyAmong {slots : List (Option A)} {js : List Nat} {k : Nat} :
    k ∈ emptyAmong slots js ↔ k ∈ js ∧ slots[k]? = some none := by
  unfold emptyAmong
  rw [List.mem_filter]
  refine and_congr_right fun _ => ?_
  cases h : slots[k]? with
  | none => simp
  | some o => cases o <;> simp

theorem emptyAmong_set {slots : List (Option A)} {js : List Nat} {k : Nat} {a : A} (h : k ∉ js) :
    emptyAmong (slots.set k (some a)) js = emptyAmong slots js := by
  unfold emptyAmong
  refine List.filter_congr fun j hj => ?_
  rw [List.getElem?_set_ne (fun e : k = j => h (e ▸ hj))]

theorem fillMissing_sound (ops : CallOps T A V) (sig : CallSig T) (w : V) (js : List Nat) (hn : js.Nodup)
    (slots s : List (Option A)) (n m : Nat) (h : fillLeftOut ops sig w js slots n = .ok (s, m)) :
    s.length = slots.length ∧ m = n + (emptyAmong slots js).length ∧
    (∀ k, k ∉ emptyAmong slots js → s[k]? = slots[k]?) ∧
    ∀ k ∈ emptyAmong slots js, ∃ t nm a, sig.kwds[k]? = some (t, nm) ∧ ops.naFor t w = .ok a ∧ s[k]? = some (some a) := by
  induction js generalizing slots n with
  | nil =>
    simp only [fillLeftOut, Res.ok.injEq, Prod.mk.injEq] at h
    obtain ⟨rfl, rfl⟩ := h
    exact ⟨rfl, rfl, fun _ _ => rfl, by simp [emptyAmong]⟩
  | cons j js ih =>
    rw [List.nodup_cons] at hn
    unfold fillLeftOut at h
    cases hs : slots[j]? with
    | none => rw [hs] at h; cases h
    | some o =>
      cases hk : sig.kwds[j]? with
      | none => rw [hs, hk] at h; cases o <;> cases h
      | some p =>
        obtain ⟨t, nm⟩ := p
        cases o with
        | some b =>
          rw [hs, hk] at h
          have he : emptyAmong slots (j :: js) = emptyAmong slots js := by
            unfold emptyAmong; rw [List.filter_cons_of_neg (by simp [hs])]
          rw [he]
          exact ih hn.2 slots n h
        | none =>
          rw [hs, hk] at h
          simp only at h
          rw [Res.bind_eq_ok] at h
          obtain ⟨a, ha, h⟩ := h
          obtain ⟨h1, h2, h3, h4⟩ := ih hn.2 _ _ h
          have he : emptyAmong slots (j :: js) = j :: emptyAmong slots js := by
            unfold emptyAmong; rw [List.filter_cons_of_pos (by simp [hs])]
          rw [emptyAmong_set hn.1] at h2 h3 h4
          rw [he]
          have hj : j ∉ emptyAmong slots js := fun h => hn.1 (mem_emptyAmong.1 h).1
          refine ⟨by simpa using h1, by simp only [List.length_cons]; omega, ?_, ?_⟩
          · intro k hk'
            rw [List.mem_cons, not_or] at hk'
            rw [h3 k hk'.2, List.getElem?_set_ne (fun e => hk'.1 e.symm)]
          · intro k hk'
            rcases List.mem_cons.1 hk' with rfl | hk'
            · exact ⟨t, nm, a, hk, ha, by rw [h3 k hj, List.getElem?_set_self (lt_of_some hs)]⟩
            · exact h4 k hk'

theorem fillMissing_complete (ops : CallOps T A V) (sig : CallSig T) (w : V) (js : List Nat) (hn : js.Nodup)
    (slots : List (Option A)) (n : Nat) (hl : ∀ j ∈ js, j < slots.length ∧ j < sig.kwds.length)
    (ha : ∀ k t nm, sig.kwds[k]? = some (t, nm) → k ∈ emptyAmong slots js → ∃ a, ops.naFor t w = .ok a) :
    ∃ s m, fillLeftOut ops sig w js slots n = .ok (s, m) := by
  induction js generalizing slots n with
  | nil => exact ⟨slots, n, rfl⟩
  | cons j js ih =>
    rw [List.nodup_cons] at hn
    obtain ⟨o, ho⟩ := some_of_lt (hl j List.mem_cons_self).1
    obtain ⟨⟨t, nm⟩, hk⟩ := some_of_lt (hl j List.mem_cons_self).2
    unfold fillLeftOut
    rw [ho, hk]
    cases o with
    | some b =>
      have he : emptyAmong slots (j :: js) = emptyAmong slots js := by
        unfold emptyAmong; rw [List.filter_cons_of_neg (by simp [ho])]
      rw [he] at ha
      exact ih hn.2 slots n (fun k hk => hl k (List.mem_cons_of_mem _ hk)) ha
    | none =>
      have he : emptyAmong slots (j :: js) = j :: emptyAmong slots js := by
        unfold emptyAmong; rw [List.filter_cons_of_pos (by simp [ho])]
      rw [he] at ha
      obtain ⟨a, haj⟩ := ha j t nm hk List.mem_cons_self
      simp only [haj, Res.bind_ok]
      refine ih hn.2 _ _ ?_ ?_
      · intro k hk; rw [List.length_set]; exact hl k (List.mem_cons_of_mem _ hk)
      · intro k t' nm' hk' hm
        rw [emptyAmong_set hn.1] at hm
        exact ha k t' nm' hk' (List.mem_cons_of_mem _ hm)

/-- `bindCall` taken apart, for non-null arguments. -/
theorem bindCall_split (ops : CallOps T A V) (sig : CallSig T) (args : List A) (kws : List (String × A))
    (r : CallOut T A V) :
    bindCall ops sig (args.map some) (kwArgs kws) = .ok r ↔
      ArityOk sig args ∧ ∃ v0 s0 s1 v1,
        MatchAll ops (posPairs ops sig args) ops.noVars v0 ∧
        s0.length = args.length + sig.kwds.length ∧
        (∀ k, s0[k]? = if k < (extras sig args).length then some (extras sig args)[k]? else
          if k < args.length + sig.kwds.length then some none else none) ∧
        bindKwds ops sig (kwArgs kws) s0 none v0 = .ok (s1, r.dst, v1) ∧
        MatchAll ops (dstPairs ops sig r.dst) v1 r.vars ∧
        fillLeftOut ops sig r.vars (optionKwdIndices ops sig.kwds 0) s1 ((extras sig args).length + kws.length) =
          .ok (r.kwds, r.nkwd) ∧
        sig.kwds.length ≤ r.nkwd ∧ r.args = (positionals sig args).map some ∧
        r.dstTp = (match r.dst with | none => sig.ret | some d => ops.typeOf d) := by
  have hex : (extras sig args).length ≤ args.length := by
    unfold extras; split <;> simp
  obtain ⟨s0, hp, hlen, hget⟩ := putExtras_ok ((extras sig args).map some) 0
    (List.replicate (args.length + sig.kwds.length) none) (by simp only [List.length_map, List.length_replicate]; omega)
  have hs0 : ∀ k, s0[k]? = if k < (extras sig args).length then some (extras sig args)[k]? else
      if k < args.length + sig.kwds.length then some none else none := by
    intro k
    rw [hget k]
    simp only [Nat.zero_le, true_and, Nat.zero_add, List.length_map, Nat.sub_zero, List.getElem?_map]
    split
    · rename_i h
      rw [List.getElem?_eq_getElem h]; rfl
    · rw [List.getElem?_replicate]
  have hdst : ∀ (d : Option A) (v w : V), checkDst ops sig d v = .ok w ↔ MatchAll ops (dstPairs ops sig d) v w := by
    intro d v w
    cases d with
    | none =>
      simp only [checkDst, dstPairs, Res.ok.injEq]
      constructor
      · rintro rfl; exact .nil _
      · intro h; cases h; rfl
    | some d =>
      simp only [checkDst, dstPairs]
      rw [Res.bind_eq_ok]
      constructor
      · rintro ⟨⟨b, v'⟩, h1, h2⟩
        cases b with
        | false => simp at h2
        | true =>
          simp only [if_true, Res.ok.injEq] at h2
          subst h2
          exact .cons h1 (.nil _)
      · intro h
        cases h with
        | cons h1 h2 => cases h2; exact ⟨_, h1, rfl⟩
  have huniq : ∀ s0' : List (Option A), s0'.length = args.length + sig.kwds.length →
      (∀ k, s0'[k]? = if k < (extras sig args).length then some (extras sig args)[k]? else
      if k < args.length + sig.kwds.length then some none else none) → s0' = s0 := by
    intro s0' _ h
    exact List.ext_getElem? fun k => by rw [h k, hs0 k]
  have core : ∀ (narg : Nat) (v0 : V), args.take narg = positionals sig args →
      (((do
        let slots ← putExtras ((extras sig args).map some) 0 (List.replicate (args.length + sig.kwds.length) none)
        let (slots, dst, vars) ← bindKwds ops sig (kwArgs kws) slots none v0
        let vars ← checkDst ops sig dst vars
        let (slots, nkwd) ← fillLeftOut ops sig vars (optionKwdIndices ops sig.kwds 0) slots
          (((extras sig args).map some).length + (kwArgs kws).length)
        if nkwd < sig.kwds.length then .throw .invalidArg else
        .ok { args := (args.map some).take narg, kwds := slots, nkwd := nkwd, dst := dst,
              dstTp := (match dst with | none => sig.ret | some d => ops.typeOf d), vars := vars } : Res (CallOut T A V))
        = .ok r) ↔ ∃ s1 v1, bindKwds ops sig (kwArgs kws) s0 none v0 = .ok (s1, r.dst, v1) ∧
        MatchAll ops (dstPairs ops sig r.dst) v1 r.vars ∧
        fillLeftOut ops sig r.vars (optionKwdIndices ops sig.kwds 0) s1 ((extras sig args).length + kws.length) =
          .ok (r.kwds, r.nkwd) ∧
        sig.kwds.length ≤ r.nkwd ∧ r.args = (positionals sig args).map some ∧
        r.dstTp = (match r.dst with | none => sig.ret | some d => ops.typeOf d)) := by
    intro narg v0 hn
    rw [hp]
    simp only [Res.bind_ok, List.length_map, kwArgs, ← List.map_take, hn]
    rw [Res.bind_eq_ok]
    constructor
    · rintro ⟨⟨s1, d, v1⟩, h1, h⟩
      simp only at h
      rw [Res.bind_eq_ok] at h
      obtain ⟨w, h2, h⟩ := h
      rw [Res.bind_eq_ok] at h
      obtain ⟨⟨s2, m⟩, h3, h⟩ := h
      simp only at h
      by_cases hm : m < sig.kwds.length
      · rw [if_pos hm] at h; cases h
      · rw [if_neg hm] at h
        simp only [Res.ok.injEq] at h
        subst h
        exact ⟨s1, v1, h1, (hdst _ _ _).1 h2, h3, Nat.le_of_not_lt hm, rfl, rfl⟩
    · rintro ⟨s1, v1, h1, h2, h3, h4, h5, h6⟩
      refine ⟨(s1, r.dst, v1), h1, ?_⟩
      simp only
      rw [(hdst _ _ _).2 h2, Res.bind_ok, h3, Res.bind_ok]
      simp only
      rw [if_neg (by omega)]
      obtain ⟨a, b, c, d, e, f⟩ := r
      simp only at h5 h6
      rw [h5, h6]
  unfold bindCall
  cases hv : sig.posVariadic with
  | true =>
    have he : extras sig args = [] := by unfold extras; rw [hv]; rfl
    have hpos : posPairs ops sig args = [] := by unfold posPairs; rw [hv]; rfl
    have ht : args.take args.length = positionals sig args := by
      unfold positionals; rw [hv, List.take_length]; rfl
    have := core args.length ops.noVars ht
    rw [if_neg (by simp)]
    simp only [if_true, readArgs_ok, Res.bind_ok, List.length_map]
    rw [he] at this
    simp only [List.map_nil] at this
    rw [hpos]
    refine Iff.trans this ?_
    constructor
    · rintro ⟨s1, v1, h⟩
      exact ⟨.inl hv, ops.noVars, s0, s1, v1, .nil _, by simpa using hlen, hs0, by rw [he]; exact h⟩
    · rintro ⟨-, v0, s0', s1, v1, h1, h2, h3, h⟩
      cases h1
      rw [huniq s0' h2 h3, he] at h
      exact ⟨s1, v1, h⟩
  | false =>
    have he : extras sig args = args.drop sig.pos.length := by unfold extras; rw [hv]; rfl
    have hpos : posPairs ops sig args = sig.pos.zip (args.map ops.typeOf) := by unfold posPairs; rw [hv]; rfl
    have ht : args.take sig.pos.length = positionals sig args := by
      unfold positionals; rw [hv]; rfl
    by_cases ha : args.length < sig.pos.length
    · rw [if_pos (by simpa using ha)]
      constructor
      · intro h; cases h
      · rintro ⟨h | h, -⟩
        · rw [hv] at h; cases h
        · omega
    · rw [if_neg (by simpa using ha)]
      simp only [Bool.false_eq_true, if_false, List.length_map]
      rw [Res.bind_eq_ok]
      constructor
      · rintro ⟨⟨narg, ex, v0⟩, h1, h⟩
        rw [Res.bind_eq_ok] at h1
        obtain ⟨v0', h1, h2⟩ := h1
        by_cases hk : sig.kwdVariadic = false ∧ args.length - sig.pos.length > sig.kwds.length
        · rw [if_pos hk] at h2; cases h2
        · rw [if_neg hk] at h2
          simp only [Res.ok.injEq, Prod.mk.injEq] at h2
          obtain ⟨rfl, rfl, rfl⟩ := h2
          rw [← List.map_drop, ← he] at h
          obtain ⟨s1, v1, h⟩ := (core _ _ ht).1 h
          refine ⟨.inr ⟨by omega, ?_⟩, v0', s0, s1, v1, ?_, by simpa using hlen, hs0, h⟩
          · cases hkv : sig.kwdVariadic with
            | true => exact .inl rfl
            | false =>
              rw [hkv] at hk
              simp only [true_and] at hk
              exact .inr (by omega)
          · rw [hpos]
            exact (checkArgs_ok ops _ _ (by omega) _ _).1 h1
      · rintro ⟨hA, v0, s0', s1, v1, h1, h2, h3, h⟩
        rw [huniq s0' h2 h3] at h
        refine ⟨(sig.pos.length, (args.drop sig.pos.length).map some, v0), ?_, ?_⟩
        · rw [hpos] at h1
          rw [(checkArgs_ok ops _ _ (by omega) _ _).2 h1, Res.bind_ok, if_neg, List.map_drop]
          rintro ⟨hk1, hk2⟩
          rcases hA with hA | ⟨-, hA | hA⟩
          · rw [hv] at hA; cases hA
          · rw [hk1] at hA; cases hA
          · omega
        · rw [← he]
          exact (core _ _ ht).2 ⟨s1, v1, h⟩

/-- The keyword arguments of a call that do not name a parameter of the callable. -/
def specials (sig : CallSig T) (kws : List (String × A)) : List (String × A) :=
  kws.filter fun x => !(sig.kwds.map Prod.snd).contains x.1

/-- Keyword parameter `k` is required and the call passes nothing for it. -/
def LeftOut (ops : CallOps T A V) (sig : CallSig T) (args : List A) (kws : List (String × A)) (k : Nat) : Prop :=
  k < sig.kwds.length ∧ ¬ IsOptional ops sig k ∧ ∀ a, ¬ Passed sig args kws k a

theorem contains_name (sig : CallSig T) (n : String) : (sig.kwds.map Prod.snd).contains n = (kwdIndex sig.kwds n).isSome := by
  generalize sig.kwds = l
  induction l with
  | nil => rfl
  | cons x l ih =>
    obtain ⟨t, m⟩ := x
    unfold kwdIndex
    simp only [List.map_cons, List.contains_cons]
    by_cases h : m = n
    · rw [if_pos h]; simp [h]
    · rw [if_neg h, ih]
      have : (n == m) = false := by
        rw [beq_eq_false_iff_ne]; exact fun e => h e.symm
      rw [this]; simp

theorem kws_length (sig : CallSig T) (kws : List (String × A)) :
    kws.length = (kws.filterMap fun x => kwdIndex sig.kwds x.1).length + (specials sig kws).length := by
  unfold specials
  induction kws with
  | nil => rfl
  | cons x ks ih =>
    cases h : kwdIndex sig.kwds x.1 with
    | none =>
      rw [List.filterMap_cons_none (f := fun x : String × A => kwdIndex sig.kwds x.1) h, List.filter_cons_of_pos (by rw [contains_name, h]; rfl)]
      simp only [List.length_cons]; omega
    | some k =>
      rw [List.filterMap_cons_some (f := fun x : String × A => kwdIndex sig.kwds x.1) h, List.filter_cons_of_neg (by rw [contains_name, h]; simp)]
      simp only [List.length_cons]; omega

theorem filterMap_nodup (sig : CallSig T) (kws : List (String × A))
    (h : kws.Pairwise fun x y => ∀ k, ¬ (IsKwd sig x.1 k ∧ IsKwd sig y.1 k)) :
    (kws.filterMap fun x => kwdIndex sig.kwds x.1).Nodup := by
  induction kws with
  | nil => exact List.nodup_nil
  | cons x ks ih =>
    rw [List.pairwise_cons] at h
    cases hx : kwdIndex sig.kwds x.1 with
    | none => rw [List.filterMap_cons_none (f := fun x : String × A => kwdIndex sig.kwds x.1) hx]; exact ih h.2
    | some k =>
      rw [List.filterMap_cons_some (f := fun x : String × A => kwdIndex sig.kwds x.1) hx, List.nodup_cons]
      refine ⟨fun hm => ?_, ih h.2⟩
      obtain ⟨y, hy, hk⟩ := List.mem_filterMap.1 hm
      exact h.1 y hy k ⟨kwdIndex_some.1 hx, kwdIndex_some.1 hk⟩

/-- A duplicate-free list of numbers below `n`: how many it leaves out. -/
theorem left_out_count (n : Nat) (L : List Nat) (hn : L.Nodup) (hl : ∀ k ∈ L, k < n) :
    ∃ U : List Nat, U.Nodup ∧ (∀ k, k ∈ U ↔ k < n ∧ k ∉ L) ∧ U.length + L.length = n := by
  refine ⟨(List.range n).filter fun k => !L.contains k, List.nodup_range.filter _, ?_, ?_⟩
  · intro k
    simp [List.mem_filter]
  · have h1 : ((List.range n).filter fun k => L.contains k).Perm L := by
      refine (List.perm_ext_iff_of_nodup (List.nodup_range.filter _) hn).2 fun k => ?_
      simp only [List.mem_filter, List.mem_range, List.contains_iff_mem]
      exact ⟨fun h => h.2, fun h => ⟨hl k h, h⟩⟩
    have h2 := List.length_eq_length_filter_add (l := List.range n) (fun k => L.contains k)
    rw [List.length_range, h1.length_eq] at h2
    omega

/-- The slots before missing values are filled in, in terms of what was passed. -/
structure SlotsOf (sig : CallSig T) (args : List A) (kws : List (String × A)) (s1 : List (Option A)) : Prop where
  len : s1.length = args.length + sig.kwds.length
  passed : ∀ k a, Passed sig args kws k a → s1[k]? = some (some a)
  rest : ∀ k, k < sig.kwds.length → (∀ a, ¬ Passed sig args kws k a) → s1[k]? = some none

theorem nkwd_count (ops : CallOps T A V) (sig : CallSig T) (args : List A) (kws : List (String × A))
    (s1 : List (Option A)) (h2 : NoTwice sig args kws) (hs : SlotsOf sig args kws s1) :
    ∃ U : List Nat, U.Nodup ∧ (∀ k, k ∈ U ↔ LeftOut ops sig args kws k) ∧
      (sig.kwds.length ≤ (extras sig args).length + kws.length +
        (emptyAmong s1 (optionKwdIndices ops sig.kwds 0)).length ↔ U.length ≤ (specials sig kws).length) ∧
      ((extras sig args).length ≤ sig.kwds.length → (extras sig args).length + kws.length +
        (emptyAmong s1 (optionKwdIndices ops sig.kwds 0)).length + U.length =
          sig.kwds.length + (specials sig kws).length) := by
  have hpe : ∀ k, k < (extras sig args).length → ∃ a, Passed sig args kws k a := fun k hk =>
    ⟨_, .inl (List.getElem?_eq_getElem hk)⟩
  by_cases hE : (extras sig args).length ≤ sig.kwds.length
  · have hL := left_out_count sig.kwds.length
      (List.range (extras sig args).length ++ (kws.filterMap fun x => kwdIndex sig.kwds x.1) ++
        emptyAmong s1 (optionKwdIndices ops sig.kwds 0)) ?_ ?_
    · obtain ⟨U, hU, hm, hc⟩ := hL
      have hlen := kws_length sig kws
      simp only [List.length_append, List.length_range] at hc
      refine ⟨U, hU, fun k => ?_, by omega, fun _ => by omega⟩
      rw [hm k]
      simp only [List.mem_append, List.mem_range, List.mem_filterMap, mem_emptyAmong, mem_optionKwdIndices, not_or, LeftOut]
      refine and_congr_right fun hk => ?_
      have hP : (∃ a, Passed sig args kws k a) ↔ k < (extras sig args).length ∨ ∃ x ∈ kws, kwdIndex sig.kwds x.1 = some k := by
        constructor
        · rintro ⟨a, h | ⟨n, hi, hx⟩⟩
          · exact .inl (lt_of_some h)
          · exact .inr ⟨(n, a), hx, kwdIndex_some.2 hi⟩
        · rintro (h | ⟨⟨n, a⟩, hx, hi⟩)
          · exact hpe k h
          · exact ⟨a, .inr ⟨n, kwdIndex_some.1 hi, hx⟩⟩
      rw [← not_or, ← hP]
      constructor
      · rintro ⟨h3, h4⟩
        refine ⟨fun ho => h4 ⟨ho, hs.rest k hk fun a ha => h3 ⟨a, ha⟩⟩, fun a ha => h3 ⟨a, ha⟩⟩
      · rintro ⟨h3, h4⟩
        exact ⟨fun ⟨a, ha⟩ => h4 a ha, fun h => h3 h.1⟩
    · rw [List.nodup_append, List.nodup_append]
      refine ⟨⟨List.nodup_range, filterMap_nodup sig kws h2.2, ?_⟩, (optionKwdIndices_nodup ops _ _).filter _, ?_⟩
      · intro a ha b hb e
        subst e
        obtain ⟨x, hx, hi⟩ := List.mem_filterMap.1 hb
        have := h2.1 x.1 x.2 a hx (kwdIndex_some.1 hi)
        rw [List.mem_range] at ha
        omega
      · intro a ha b hb e
        subst e
        have hnone := (mem_emptyAmong.1 hb).2
        rcases List.mem_append.1 ha with ha | ha
        · obtain ⟨x, hx⟩ := hpe a (List.mem_range.1 ha)
          rw [hs.passed a x hx] at hnone; cases hnone
        · obtain ⟨x, hx, hi⟩ := List.mem_filterMap.1 ha
          rw [hs.passed a x.2 (.inr ⟨x.1, kwdIndex_some.1 hi, hx⟩)] at hnone; cases hnone
    · intro k hk
      rcases List.mem_append.1 hk with hk | hk
      · rcases List.mem_append.1 hk with hk | hk
        · have := List.mem_range.1 hk; omega
        · obtain ⟨x, hx, hi⟩ := List.mem_filterMap.1 hk
          exact (kwdIndex_some.1 hi).lt
      · obtain ⟨t, n, h, -⟩ := (mem_optionKwdIndices ops sig k).1 (mem_emptyAmong.1 hk).1
        exact lt_of_some h
  · refine ⟨[], List.nodup_nil, fun k => ?_, ?_, fun h => absurd h hE⟩
    · simp only [List.not_mem_nil, false_iff]
      rintro ⟨h1, -, h3⟩
      obtain ⟨a, ha⟩ := hpe k (by omega)
      exact h3 a ha
    · simp only [List.length_nil, Nat.zero_le, iff_true]
      omega

/-- What a successful call hands to the callable, in terms of what the caller wrote. -/
structure Handed (ops : CallOps T A V) (sig : CallSig T) (args : List A) (kws : List (String × A))
    (r : CallOut T A V) : Prop where
  /-- the positional arguments, in order -/
  pos : r.args = (positionals sig args).map some
  /-- every value passed for a keyword parameter, under that parameter -/
  passed : ∀ k a, Passed sig args kws k a → r.kwds[k]? = some (some a)
  /-- a missing value for every optional parameter not passed -/
  missing : ∀ k, IsOptional ops sig k → (∀ a, ¬ Passed sig args kws k a) →
    ∃ t n a, sig.kwds[k]? = some (t, n) ∧ ops.naFor t r.vars = .ok a ∧ r.kwds[k]? = some (some a)
  /-- null for a required parameter left out -/
  unbound : ∀ k, LeftOut ops sig args kws k → r.kwds[k]? = some none
  /-- the destination asked for -/
  dst : DstOf ops sig kws none r.dst
  dstTp : r.dstTp = (match r.dst with | none => sig.ret | some d => ops.typeOf d)
  /-- the type variables bound by matching arguments, keywords and destination in that order -/
  types : ∃ l, KwPairs ops sig kws l ∧ MatchAll ops (posPairs ops sig args ++ l ++ dstPairs ops sig r.dst) ops.noVars r.vars

/-- The initial slots are all free where keywords go, exactly when nothing is passed twice. -/
theorem free_iff (sig : CallSig T) (args : List A) (kws : List (String × A)) (s0 : List (Option A))
    (hs0 : ∀ k, s0[k]? = if k < (extras sig args).length then some (extras sig args)[k]? else
          if k < args.length + sig.kwds.length then some none else none) :
    (∀ x ∈ kws, ∀ k, IsKwd sig x.1 k → s0[k]? = some none) ↔
      ∀ n a k, (n, a) ∈ kws → IsKwd sig n k → (extras sig args).length ≤ k := by
  constructor
  · intro h n a k hx hi
    have := h (n, a) hx k hi
    rw [hs0 k] at this
    by_cases hk : k < (extras sig args).length
    · rw [if_pos hk, List.getElem?_eq_getElem hk] at this
      cases this
    · omega
  · intro h x hx k hi
    have := h x.1 x.2 k hx hi
    have := hi.lt
    rw [hs0 k, if_neg (by omega), if_pos (by omega)]

theorem slotsOf_of (sig : CallSig T) (args : List A) (kws : List (String × A)) (s0 s1 : List (Option A))
    (hlen : s0.length = args.length + sig.kwds.length)
    (hs0 : ∀ k, s0[k]? = if k < (extras sig args).length then some (extras sig args)[k]? else
          if k < args.length + sig.kwds.length then some none else none)
    (hk : KwSlots sig kws s0 s1) : SlotsOf sig args kws s1 := by
  have hfree := (free_iff sig args kws s0 hs0).1 hk.free
  refine ⟨hk.len.trans hlen, ?_, ?_⟩
  · rintro k a (h | ⟨n, hi, hx⟩)
    · have hlt := lt_of_some h
      rw [hk.rest k, hs0 k, if_pos hlt, h]
      intro x hx hi
      have := hfree x.1 x.2 k hx hi
      omega
    · exact hk.given n a k hx hi
  · intro k hkl hP
    rw [hk.rest k, hs0 k, if_neg, if_pos (by omega)]
    · intro h
      exact hP _ (.inl (List.getElem?_eq_getElem h))
    · intro x hx hi
      exact hP x.2 (.inr ⟨x.1, hi, hx⟩)

/-- **C90 (a call that goes through).**  When a call is accepted, its number of arguments fits the signature, no keyword
    parameter was given twice, the callable gets exactly what the caller passed — each value under the parameter it was
    passed for, missing values for omitted optional parameters — and at most as many required keyword parameters were
    left out as the call has `dst`/`dst_tp` keywords. -/
theorem call_binding_sound (ops : CallOps T A V) (sig : CallSig T) (args : List A) (kws : List (String × A))
    (r : CallOut T A V) (h : bindCall ops sig (args.map some) (kwArgs kws) = .ok r) :
    ArityOk sig args ∧ NoTwice sig args kws ∧ Handed ops sig args kws r ∧
    ∃ U : List Nat, U.Nodup ∧ (∀ k, k ∈ U ↔ LeftOut ops sig args kws k) ∧ U.length ≤ (specials sig kws).length ∧
      ((extras sig args).length ≤ sig.kwds.length → r.nkwd + U.length = sig.kwds.length + (specials sig kws).length) := by
  obtain ⟨hA, v0, s0, s1, v1, hm0, hl0, hs0, hb, hd, hf, hc, ha, ht⟩ := (bindCall_split ops sig args kws r).1 h
  obtain ⟨hks, hdst, l, hl, hml⟩ := bindKwds_sound ops sig kws s0 s1 none r.dst v0 v1 hb
  have h2 : NoTwice sig args kws := ⟨(free_iff sig args kws s0 hs0).1 hks.free, hks.once⟩
  have hS := slotsOf_of sig args kws s0 s1 hl0 hs0 hks
  obtain ⟨f1, f2, f3, f4⟩ := fillMissing_sound ops sig r.vars _ (optionKwdIndices_nodup ops _ _) s1 r.kwds _ _ hf
  obtain ⟨U, u1, u2, u3, u4⟩ := nkwd_count ops sig args kws s1 h2 hS
  refine ⟨hA, h2, ⟨ha, ?_, ?_, ?_, hdst, ht, l, hl, (hm0.append hml).append hd⟩, U, u1, u2, ?_, ?_⟩
  · intro k a hP
    rw [f3 k, hS.passed k a hP]
    intro hk
    have := (mem_emptyAmong.1 hk).2
    rw [hS.passed k a hP] at this
    cases this
  · intro k ho hP
    have hkl : k < sig.kwds.length := by obtain ⟨t, n, hh, -⟩ := ho; exact lt_of_some hh
    exact f4 k (mem_emptyAmong.2 ⟨(mem_optionKwdIndices ops sig k).2 ho, hS.rest k hkl hP⟩)
  · rintro k ⟨hkl, ho, hP⟩
    rw [f3 k, hS.rest k hkl hP]
    intro hk
    exact ho ((mem_optionKwdIndices ops sig k).1 (mem_emptyAmong.1 hk).1)
  · rw [f2] at hc
    exact u3.1 hc
  · intro hE
    rw [f2]
    exact u4 hE

/-- **C90 (calls that must go through).**  A call whose number of arguments fits, which passes nothing twice, whose
    keywords are all known, whose argument types match and which leaves out no required keyword is accepted. -/
theorem call_binding_complete (ops : CallOps T A V) (sig : CallSig T) (args : List A) (kws : List (String × A))
    (d : Option A) (w : V) (l : List (T × T)) (hA : ArityOk sig args) (h2 : NoTwice sig args kws)
    (hd : DstOf ops sig kws none d) (hl : KwPairs ops sig kws l)
    (hm : MatchAll ops (posPairs ops sig args ++ l ++ dstPairs ops sig d) ops.noVars w)
    (hna : ∀ (k : Nat) t n, sig.kwds[k]? = some (t, n) → (ops.optionValue t).isSome → ∃ a, ops.naFor t w = .ok a)
    (hreq : ∀ k, ¬ LeftOut ops sig args kws k) :
    ∃ r, bindCall ops sig (args.map some) (kwArgs kws) = .ok r := by
  obtain ⟨v1, hm01, hmd⟩ := hm.split
  obtain ⟨v0, hm0, hml⟩ := hm01.split
  let s0 : List (Option A) := (List.range (args.length + sig.kwds.length)).map fun k => (extras sig args)[k]?
  have hex : (extras sig args).length ≤ args.length := by
    unfold extras; split <;> simp
  have hl0 : s0.length = args.length + sig.kwds.length := by simp [s0]
  have hs0 : ∀ k, s0[k]? = if k < (extras sig args).length then some (extras sig args)[k]? else
          if k < args.length + sig.kwds.length then some none else none := by
    intro k
    simp only [s0, List.getElem?_map]
    by_cases hk : k < args.length + sig.kwds.length
    · rw [List.getElem?_range hk]
      by_cases hk2 : k < (extras sig args).length
      · rw [if_pos hk2]; rfl
      · rw [if_neg hk2, if_pos hk]
        simp only [Option.map_some, Option.some.injEq]
        exact List.getElem?_eq_none (by omega)
    · rw [if_neg (by omega), if_neg hk, List.getElem?_eq_none (by simpa using hk)]; rfl
  obtain ⟨s1, hb⟩ := bindKwds_complete ops sig kws s0 none d v0 v1 l ((free_iff sig args kws s0 hs0).2 h2.1) h2.2 hd hl hml
  have hks := (bindKwds_sound ops sig kws s0 s1 none d v0 v1 hb).1
  have hS := slotsOf_of sig args kws s0 s1 hl0 hs0 hks
  obtain ⟨s2, m, hf⟩ := fillMissing_complete ops sig w (optionKwdIndices ops sig.kwds 0) (optionKwdIndices_nodup ops _ _) s1
    ((extras sig args).length + kws.length) (by
      intro j hj
      obtain ⟨t, n, hh, -⟩ := (mem_optionKwdIndices ops sig j).1 hj
      have := lt_of_some hh
      have := hS.len
      omega) (by
      intro k t n hk hmem
      obtain ⟨t', n', hh, ho⟩ := (mem_optionKwdIndices ops sig k).1 (mem_emptyAmong.1 hmem).1
      rw [hk] at hh
      cases hh
      exact hna k t n hk ho)
  obtain ⟨f1, f2, f3, f4⟩ := fillMissing_sound ops sig w _ (optionKwdIndices_nodup ops _ _) s1 s2 _ _ hf
  obtain ⟨U, u1, u2, u3, u4⟩ := nkwd_count ops sig args kws s1 h2 hS
  have hU : U = [] := by
    cases U with
    | nil => rfl
    | cons k U => exact absurd ((u2 k).1 List.mem_cons_self) (hreq k)
  subst hU
  refine ⟨⟨(positionals sig args).map some, s2, m, d, (match d with | none => sig.ret | some d => ops.typeOf d), w⟩, ?_⟩
  rw [bindCall_split]
  refine ⟨hA, v0, s0, s1, v1, hm0, hl0, hs0, hb, hmd, hf, ?_, rfl, by cases d <;> rfl⟩
  rw [f2]
  exact u3.2 (Nat.zero_le _)

/-- **C90 (required keywords).**  An accepted call without `dst`/`dst_tp` keywords passes every required keyword
    parameter: every keyword parameter reaches the callable with a value, and the count handed over is right. -/
theorem call_required_keywords_bound (ops : CallOps T A V) (sig : CallSig T) (args : List A) (kws : List (String × A))
    (r : CallOut T A V) (hsp : ∀ n a, (n, a) ∈ kws → ∃ k, IsKwd sig n k)
    (h : bindCall ops sig (args.map some) (kwArgs kws) = .ok r) :
    (∀ k < sig.kwds.length, ∃ a, r.kwds[k]? = some (some a)) ∧
    (sig.kwdVariadic = false → r.nkwd = sig.kwds.length) := by
  obtain ⟨hA, -, hH, U, u1, u2, u3, u4⟩ := call_binding_sound ops sig args kws r h
  have hs : specials sig kws = [] := by
    unfold specials
    rw [List.filter_eq_nil_iff]
    intro x hx
    obtain ⟨k, hk⟩ := hsp x.1 x.2 hx
    rw [contains_name, kwdIndex_some.2 hk]
    simp
  rw [hs] at u3 u4
  have hU : U = [] := List.length_eq_zero_iff.1 (Nat.le_zero.1 u3)
  subst hU
  refine ⟨fun k hk => ?_, fun hv => ?_⟩
  · by_cases hP : ∃ a, Passed sig args kws k a
    · obtain ⟨a, ha⟩ := hP
      exact ⟨a, hH.passed k a ha⟩
    · have hP' : ∀ a, ¬ Passed sig args kws k a := fun a ha => hP ⟨a, ha⟩
      by_cases ho : IsOptional ops sig k
      · obtain ⟨-, -, a, -, -, ha⟩ := hH.missing k ho hP'
        exact ⟨a, ha⟩
      · exact absurd ((u2 k).2 ⟨hk, ho, hP'⟩) List.not_mem_nil
  · have hE : (extras sig args).length ≤ sig.kwds.length := by
      unfold extras
      rcases hA with hA | ⟨-, hA | hA⟩
      · rw [hA]; simp
      · rw [hv] at hA; cases hA
      · split
        · simp
        · rw [List.length_drop]; omega
    have := u4 hE
    simpa using this

theorem DstOf.none_of_no_special {ops : CallOps T A V} {sig : CallSig T} {kws : List (String × A)} (d : Option A)
    (h : ∀ n a, (n, a) ∈ kws → ∃ k, IsKwd sig n k) : DstOf ops sig kws d d := by
  induction kws with
  | nil => exact .nil d
  | cons x ks ih =>
    obtain ⟨k, hk⟩ := h x.1 x.2 List.mem_cons_self
    exact .kwd hk (ih fun n a hx => h n a (List.mem_cons_of_mem _ hx))

theorem DstOf.eq_of_no_special {ops : CallOps T A V} {sig : CallSig T} {kws : List (String × A)} {d d' : Option A}
    (h : ∀ n a, (n, a) ∈ kws → ∃ k, IsKwd sig n k) (hd : DstOf ops sig kws d d') : d' = d := by
  induction hd with
  | nil => rfl
  | kwd _ _ ih => exact ih fun n a hx => h n a (List.mem_cons_of_mem _ hx)
  | dst hn _ _ =>
    obtain ⟨k, ⟨t, ht⟩, -⟩ := h _ _ List.mem_cons_self
    exact absurd ht (hn k t)
  | dstTp hn _ _ _ =>
    obtain ⟨k, ⟨t, ht⟩, -⟩ := h _ _ List.mem_cons_self
    exact absurd ht (hn k t)

theorem KwPairs.perm {ops : CallOps T A V} {sig : CallSig T} {ks ks' : List (String × A)} (hp : ks.Perm ks') :
    ∀ l, KwPairs ops sig ks l → ∃ l', KwPairs ops sig ks' l' ∧ l.Perm l' := by
  induction hp with
  | nil => exact fun l h => ⟨l, h, .refl _⟩
  | cons x _ ih =>
    intro l h
    cases h with
    | special hn hl =>
      obtain ⟨l', h1, h2⟩ := ih _ hl
      exact ⟨l', .special hn h1, h2⟩
    | kwd hi ht hl =>
      obtain ⟨l', h1, h2⟩ := ih _ hl
      exact ⟨_, .kwd hi ht h1, h2.cons _⟩
  | swap x y ks =>
    intro l h
    cases h with
    | special hn hl =>
      cases hl with
      | special hn' hl => exact ⟨_, .special hn' (.special hn hl), .refl _⟩
      | kwd hi ht hl => exact ⟨_, .kwd hi ht (.special hn hl), .refl _⟩
    | kwd hi ht hl =>
      cases hl with
      | special hn' hl => exact ⟨_, .special hn' (.kwd hi ht hl), .refl _⟩
      | kwd hi' ht' hl => exact ⟨_, .kwd hi' ht' (.kwd hi ht hl), .swap _ _ _⟩
  | trans _ _ ih1 ih2 =>
    intro l h
    obtain ⟨l1, h1, p1⟩ := ih1 l h
    obtain ⟨l2, h2, p2⟩ := ih2 l1 h1
    exact ⟨l2, h2, p1.trans p2⟩

/-- With patterns that bind no type variables, the order of matching is immaterial. -/
theorem matchAll_fixed {ops : CallOps T A V} (hf : ∀ p c v b v', ops.matchTy p c v = .ok (b, v') → v' = v)
    {l : List (T × T)} {v w : V} :
    MatchAll ops l v w ↔ w = v ∧ ∀ x ∈ l, ops.matchTy x.1 x.2 v = .ok (true, v) := by
  induction l generalizing v with
  | nil =>
    constructor
    · intro h; cases h; exact ⟨rfl, by simp⟩
    · rintro ⟨rfl, -⟩; exact .nil _
  | cons x l ih =>
    constructor
    · intro h
      cases h with
      | cons h1 h2 =>
        have := hf _ _ _ _ _ h1
        subst this
        obtain ⟨rfl, h3⟩ := ih.1 h2
        refine ⟨rfl, fun y hy => ?_⟩
        rcases List.mem_cons.1 hy with rfl | hy
        · exact h1
        · exact h3 y hy
    · rintro ⟨rfl, h⟩
      exact .cons (h x List.mem_cons_self) (ih.2 ⟨rfl, fun y hy => h y (List.mem_cons_of_mem _ hy)⟩)

/-- **C90 (order of keywords).**  For signatures whose patterns bind no type variables, writing the keyword arguments in
    another order changes nothing: the call is accepted as well, and every keyword parameter receives the same value. -/
theorem call_keyword_order_irrelevant (ops : CallOps T A V) (sig : CallSig T) (args : List A)
    (kws kws' : List (String × A)) (r : CallOut T A V)
    (hf : ∀ p c v b v', ops.matchTy p c v = .ok (b, v') → v' = v)
    (hsp : ∀ n a, (n, a) ∈ kws → ∃ k, IsKwd sig n k) (hp : kws.Perm kws')
    (hna : ∀ (k : Nat) t n, sig.kwds[k]? = some (t, n) → (ops.optionValue t).isSome → ∃ a, ops.naFor t ops.noVars = .ok a)
    (h : bindCall ops sig (args.map some) (kwArgs kws) = .ok r) :
    ∃ r', bindCall ops sig (args.map some) (kwArgs kws') = .ok r' ∧ r'.args = r.args ∧ r'.dst = r.dst ∧
      r'.vars = r.vars ∧ ∀ k < sig.kwds.length, r'.kwds[k]? = r.kwds[k]? := by
  obtain ⟨hA, h2, hH, U, u1, u2, u3, u4⟩ := call_binding_sound ops sig args kws r h
  have hreq := (call_required_keywords_bound ops sig args kws r hsp h).1
  obtain ⟨l, hl, hm⟩ := hH.types
  have hdst := hH.dst.eq_of_no_special hsp
  rw [hdst] at hm
  have hsp' : ∀ n a, (n, a) ∈ kws' → ∃ k, IsKwd sig n k := fun n a hx => hsp n a (hp.mem_iff.2 hx)
  obtain ⟨l', hl', hpl⟩ := hl.perm hp
  have hm' : MatchAll ops (posPairs ops sig args ++ l' ++ dstPairs ops sig none) ops.noVars r.vars := by
    rw [matchAll_fixed hf] at hm ⊢
    refine ⟨hm.1, fun x hx => hm.2 x ?_⟩
    have := ((List.Perm.refl (posPairs ops sig args)).append hpl).append (List.Perm.refl (dstPairs ops sig (none : Option A)))
    exact this.mem_iff.2 hx
  have hv : r.vars = ops.noVars := ((matchAll_fixed hf).1 hm).1
  have hP : ∀ k a, Passed sig args kws k a ↔ Passed sig args kws' k a := fun k a => by
    unfold Passed
    simp only [hp.mem_iff]
  have h2' : NoTwice sig args kws' := by
    refine ⟨fun n a k hx => h2.1 n a k (hp.mem_iff.2 hx), ?_⟩
    refine (hp.pairwise_iff ?_).1 h2.2
    intro x y hxy k hk
    exact hxy k ⟨hk.2, hk.1⟩
  have hLO : ∀ k, ¬ LeftOut ops sig args kws k := by
    intro k hk
    obtain ⟨a, ha⟩ := hreq k hk.1
    rw [hH.unbound k hk] at ha
    cases ha
  obtain ⟨r', hr'⟩ := call_binding_complete ops sig args kws' none r.vars l' hA h2' (DstOf.none_of_no_special none hsp')
    hl' hm' (by rw [hv]; exact hna) (by
      rintro k ⟨a, b, c⟩
      exact hLO k ⟨a, b, fun x hx => c x ((hP k x).1 hx)⟩)
  obtain ⟨-, -, hH', -⟩ := call_binding_sound ops sig args kws' r' hr'
  have hdst' := hH'.dst.eq_of_no_special hsp'
  obtain ⟨l'', -, hm''⟩ := hH'.types
  have hv' : r'.vars = ops.noVars := ((matchAll_fixed hf).1 hm'').1
  refine ⟨r', hr', hH'.pos.trans hH.pos.symm, hdst'.trans hdst.symm, hv'.trans hv.symm, fun k hk => ?_⟩
  by_cases hp : ∃ a, Passed sig args kws k a
  · obtain ⟨a, ha⟩ := hp
    rw [hH.passed k a ha, hH'.passed k a ((hP k a).1 ha)]
  · have hp1 : ∀ a, ¬ Passed sig args kws k a := fun a ha => hp ⟨a, ha⟩
    have hp2 : ∀ a, ¬ Passed sig args kws' k a := fun a ha => hp ⟨a, (hP k a).2 ha⟩
    by_cases ho : IsOptional ops sig k
    · obtain ⟨t, n, a, h1, h3, h4⟩ := hH.missing k ho hp1
      obtain ⟨t', n', a', h1', h3', h4'⟩ := hH'.missing k ho hp2
      rw [h1] at h1'
      cases h1'
      rw [hv'] at h3'
      rw [hv, h3'] at h3
      cases h3
      rw [h4, h4']
    · exact absurd ⟨hk, ho, hp1⟩ (hLO k)

/-- The operations on types and arrays neither throw nor misbehave. -/
structure CallOps.Total (ops : CallOps T A V) : Prop where
  matchTy : ∀ p c v, ∃ b v', ops.matchTy p c v = .ok (b, v')
  naFor : ∀ t v, ∃ a, ops.naFor t v = .ok a
  emptyOf : ∀ a, ∃ e, ops.emptyOf a = .ok e

theorem checkArgs_total {ops : CallOps T A V} (ht : ops.Total) (ts : List T) (as : List A) (h : ts.length ≤ as.length)
    (v : V) : (∃ w, checkArgs ops ts (as.map some) v = .ok w) ∨ checkArgs ops ts (as.map some) v = .throw .invalidArg := by
  induction ts generalizing as v with
  | nil => exact .inl ⟨v, rfl⟩
  | cons t ts ih =>
    cases as with
    | nil => simp at h
    | cons a as =>
      obtain ⟨b, v', hm⟩ := ht.matchTy t (ops.typeOf a) v
      simp only [List.map_cons, checkArgs, hm, Res.bind_ok]
      cases b with
      | true => simpa using ih as (by simpa using h) v'
      | false => exact .inr (by simp)

theorem bindKwds_total {ops : CallOps T A V} (ht : ops.Total) (sig : CallSig T) (ks : List (String × A))
    (slots : List (Option A)) (hl : sig.kwds.length ≤ slots.length) (d : Option A) (v : V) :
    (∃ x, bindKwds ops sig (kwArgs ks) slots d v = .ok x) ∨
      bindKwds ops sig (kwArgs ks) slots d v = .throw .invalidArg := by
  induction ks generalizing slots d v with
  | nil => exact .inl ⟨_, rfl⟩
  | cons x ks ih =>
    obtain ⟨n, a⟩ := x
    simp only [kwArgs, List.map_cons, bindKwds]
    cases hk : kwdIndex sig.kwds n with
    | none =>
      simp only
      by_cases h1 : n = "dst_tp"
      · rw [if_pos h1]
        obtain ⟨e, he⟩ := ht.emptyOf a
        rw [he, Res.bind_ok]
        exact ih slots hl _ _
      · rw [if_neg h1]
        by_cases h2 : n = "dst"
        · rw [if_pos h2]; exact ih slots hl _ _
        · rw [if_neg h2]; exact .inr rfl
    | some k =>
      have hi := kwdIndex_some.1 hk
      obtain ⟨⟨t, hkt⟩, -⟩ := id hi
      obtain ⟨o, ho⟩ := some_of_lt (Nat.lt_of_lt_of_le hi.lt hl)
      simp only [hkt, ho]
      cases o with
      | some _ => exact .inr rfl
      | none =>
        obtain ⟨b, v', hm⟩ := ht.matchTy ((ops.optionValue t).getD t) (ops.valueType (ops.typeOf a)) v
        simp only [hm, Res.bind_ok]
        cases b with
        | true => simpa [kwArgs] using ih (slots.set k (some a)) (by simpa using hl) d v'
        | false => exact .inr (by simp)

/-- **C90 (rejected calls).**  When matching and creating values always succeed, a call with no null argument is either
    accepted or raises `invalid_argument`: no other outcome. -/
theorem call_ok_or_invalid {ops : CallOps T A V} (ht : ops.Total) (sig : CallSig T) (args : List A)
    (kws : List (String × A)) :
    (∃ r, bindCall ops sig (args.map some) (kwArgs kws) = .ok r) ∨
      bindCall ops sig (args.map some) (kwArgs kws) = .throw .invalidArg := by
  have core : ∀ (narg : Nat) (ex : List A) (v0 : V), ex.length ≤ args.length →
      (∃ r, (do
        let slots ← putExtras (ex.map some) 0 (List.replicate (args.length + sig.kwds.length) none)
        let (slots, dst, vars) ← bindKwds ops sig (kwArgs kws) slots none v0
        let vars ← checkDst ops sig dst vars
        let (slots, nkwd) ← fillLeftOut ops sig vars (optionKwdIndices ops sig.kwds 0) slots
          ((ex.map some).length + (kwArgs kws).length)
        if nkwd < sig.kwds.length then .throw .invalidArg else
        .ok { args := (args.map some).take narg, kwds := slots, nkwd := nkwd, dst := dst,
              dstTp := (match dst with | none => sig.ret | some d => ops.typeOf d), vars := vars } : Res (CallOut T A V))
        = .ok r) ∨ (do
        let slots ← putExtras (ex.map some) 0 (List.replicate (args.length + sig.kwds.length) none)
        let (slots, dst, vars) ← bindKwds ops sig (kwArgs kws) slots none v0
        let vars ← checkDst ops sig dst vars
        let (slots, nkwd) ← fillLeftOut ops sig vars (optionKwdIndices ops sig.kwds 0) slots
          ((ex.map some).length + (kwArgs kws).length)
        if nkwd < sig.kwds.length then .throw .invalidArg else
        .ok { args := (args.map some).take narg, kwds := slots, nkwd := nkwd, dst := dst,
              dstTp := (match dst with | none => sig.ret | some d => ops.typeOf d), vars := vars } : Res (CallOut T A V))
        = .throw .invalidArg := by
    intro narg ex v0 hex
    obtain ⟨s0, hp, hlen, -⟩ := putExtras_ok (ex.map some) 0
      (List.replicate (args.length + sig.kwds.length) none) (by simp only [List.length_map, List.length_replicate]; omega)
    rw [List.length_replicate] at hlen
    rw [hp]
    simp only [Res.bind_ok]
    rcases bindKwds_total ht sig kws s0 (by omega) none v0 with ⟨⟨s1, d, v1⟩, hb⟩ | hb
    · rw [hb]
      simp only [Res.bind_ok]
      have hs1 := (bindKwds_sound ops sig kws s0 s1 none d v0 v1 hb).1.len
      have hfill : ∀ w, ∃ s m, fillLeftOut ops sig w (optionKwdIndices ops sig.kwds 0) s1
          ((ex.map some).length + (kwArgs kws).length) = .ok (s, m) := fun w =>
        fillMissing_complete ops sig w _ (optionKwdIndices_nodup ops _ _) s1 _ (by
          intro j hj
          obtain ⟨t, n, hh, -⟩ := (mem_optionKwdIndices ops sig j).1 hj
          have := lt_of_some hh
          omega) (fun k t n _ _ => ht.naFor t w)
      have fin : ∀ w, (∃ r, (do
          let (slots, nkwd) ← fillLeftOut ops sig w (optionKwdIndices ops sig.kwds 0) s1
            ((ex.map some).length + (kwArgs kws).length)
          if nkwd < sig.kwds.length then .throw .invalidArg else
          .ok { args := (args.map some).take narg, kwds := slots, nkwd := nkwd, dst := d,
                dstTp := (match d with | none => sig.ret | some d => ops.typeOf d), vars := w } : Res (CallOut T A V))
          = .ok r) ∨ (do
          let (slots, nkwd) ← fillLeftOut ops sig w (optionKwdIndices ops sig.kwds 0) s1
            ((ex.map some).length + (kwArgs kws).length)
          if nkwd < sig.kwds.length then .throw .invalidArg else
          .ok { args := (args.map some).take narg, kwds := slots, nkwd := nkwd, dst := d,
                dstTp := (match d with | none => sig.ret | some d => ops.typeOf d), vars := w } : Res (CallOut T A V))
          = .throw .invalidArg := by
        intro w
        obtain ⟨s, m, hf⟩ := hfill w
        rw [hf]
        simp only [Res.bind_ok]
        by_cases hm : m < sig.kwds.length
        · exact .inr (by rw [if_pos hm])
        · exact .inl ⟨_, by rw [if_neg hm]⟩
      cases d with
      | none =>
        simp only [checkDst, Res.bind_ok]
        exact fin v1
      | some d =>
        obtain ⟨b, v', hm⟩ := ht.matchTy sig.ret (ops.typeOf d) v1
        simp only [checkDst, hm, Res.bind_ok]
        cases b with
        | true =>
          simp only [if_true, Res.bind_ok]
          exact fin v'
        | false => exact .inr (by simp)
    · rw [hb]
      exact .inr rfl
  unfold bindCall
  simp only [List.length_map]
  by_cases ha : sig.posVariadic = false ∧ args.length < sig.pos.length
  · rw [if_pos ha]; exact .inr rfl
  · rw [if_neg ha]
    cases hv : sig.posVariadic with
    | true =>
      simp only [if_true, readArgs_ok, Res.bind_ok]
      exact core args.length [] ops.noVars (Nat.zero_le _)
    | false =>
      simp only [Bool.false_eq_true, if_false]
      rw [hv] at ha
      simp only [true_and, Nat.not_lt] at ha
      rcases checkArgs_total ht sig.pos args ha ops.noVars with ⟨w, hw⟩ | hw
      · rw [hw, Res.bind_ok]
        by_cases hk : sig.kwdVariadic = false ∧ args.length - sig.pos.length > sig.kwds.length
        · rw [if_pos hk]; exact .inr rfl
        · rw [if_neg hk, Res.bind_ok, ← List.map_drop]
          exact core sig.pos.length (args.drop sig.pos.length) w (by rw [List.length_drop]; omega)
      · rw [hw]; exact .inr rfl

/-- **C90, violated.**  With a `dst` keyword the check for missing required keywords is off by one: a callable with one
    required keyword parameter accepts a call that passes only `dst`, and gets a null array for the parameter. -/
theorem call_dst_hides_missing_keyword_violated (ops : CallOps T A V) (t ret : T) (n : String) (d : A) (w : V)
    (hn : n ≠ "dst") (ho : ops.optionValue t = none) (hm : ops.matchTy ret (ops.typeOf d) ops.noVars = .ok (true, w)) :
    ∃ r, bindCall ops ⟨[], false, [(t, n)], false, ret⟩ [] (kwArgs [("dst", d)]) = .ok r ∧
      LeftOut ops ⟨[], false, [(t, n)], false, ret⟩ [] [("dst", d)] 0 ∧ r.kwds[0]? = some none ∧ r.nkwd = 1 := by
  refine ⟨⟨[], [none], 1, some d, ops.typeOf d, w⟩, ?_, ⟨Nat.zero_lt_one, ?_, ?_⟩, rfl, rfl⟩
  · simp [bindCall, checkArgs, putExtras, bindKwds, kwArgs, kwdIndex, hn, checkDst, hm, optionKwdIndices, ho, fillLeftOut,
      List.replicate]
  · rintro ⟨t', n', h1, h2⟩
    simp only [List.getElem?_cons_zero, Option.some.injEq, Prod.mk.injEq] at h1
    rw [← h1.1, ho] at h2
    cases h2
  · rintro a (h | ⟨m, ⟨⟨t', h1⟩, -⟩, h2⟩)
    · simp [extras] at h
    · simp only [List.getElem?_cons_zero, Option.some.injEq, Prod.mk.injEq] at h1
      simp only [List.mem_singleton, Prod.mk.injEq] at h2
      exact hn (h1.2.trans h2.1)

/-- **C90, violated.**  An extra positional argument standing for a keyword parameter is not matched against the
    parameter's type: an argument of any type is accepted, although the same value passed by name would be refused. -/
theorem call_extra_positional_unchecked_violated (ops : CallOps T A V) (t ret : T) (n : String) (a : A) :
    ∃ r, bindCall ops ⟨[], false, [(t, n)], false, ret⟩ [some a] [] = .ok r ∧ r.kwds[0]? = some (some a) := by
  refine ⟨⟨[], [some a, none], 1, none, ret, ops.noVars⟩, ?_, rfl⟩
  cases ho : ops.optionValue t <;>
  simp [bindCall, checkArgs, putExtras, bindKwds, checkDst, optionKwdIndices, ho, fillLeftOut, List.replicate]

/-- The same value by name, when its type does not match: refused. -/
theorem call_keyword_type_checked (ops : CallOps T A V) (t ret : T) (n : String) (a : A) (w : V)
    (h : ops.matchTy ((ops.optionValue t).getD t) (ops.valueType (ops.typeOf a)) ops.noVars = .ok (false, w)) :
    bindCall ops ⟨[], false, [(t, n)], false, ret⟩ [] (kwArgs [(n, a)]) = .throw .invalidArg := by
  simp [bindCall, checkArgs, putExtras, bindKwds, kwArgs, kwdIndex, h, List.replicate]

/-- **C90, violated.**  A keyword argument whose value is a null array is dereferenced. -/
theorem call_null_keyword_violated (ops : CallOps T A V) (t ret : T) (n : String) :
    bindCall ops ⟨[], false, [(t, n)], false, ret⟩ [] [(n, none)] = .ub := by
  simp [bindCall, checkArgs, putExtras, bindKwds, kwdIndex, List.replicate]

/-- **C90, violated.**  A callable with variadic keywords (`(…, a: int32, ...)`) still refuses every keyword not named in
    its signature. -/
theorem call_variadic_keywords_refused_violated (ops : CallOps T A V) (sig : CallSig T) (n : String) (a : A)
    (hp : sig.pos = []) (hk : sig.kwds = []) (h1 : n ≠ "dst") (h2 : n ≠ "dst_tp") :
    bindCall ops sig [] (kwArgs [(n, a)]) = .throw .invalidArg := by
  obtain ⟨pos, pv, kwds, kv, ret⟩ := sig
  simp only at hp hk
  subst hp hk
  cases pv <;> simp [bindCall, checkArgs, readArgs, putExtras, bindKwds, kwArgs, kwdIndex, h1, h2]

end

/-- A toy instance: types are numbers (`t + 100` is the option of `t`), arrays are (type, number) pairs, no type
    variables. -/
def toyOps : CallOps Nat (Nat × Int) Unit where
  typeOf := Prod.fst
  valueType := id
  optionValue := fun t => if 100 ≤ t then some (t - 100) else none
  matchTy := fun p c _ => .ok (p == c, ())
  naFor := fun t _ => .ok (t, -1)
  emptyOf := fun a => .ok a
  noVars := ()

/-- Non-vacuity: two keywords in the other order, the optional one omitted. -/
example : bindCall toyOps ⟨[7], false, [(1, "lo"), (1, "hi"), (101, "step")], false, 7⟩ [some (7, 1)]
    (kwArgs [("hi", (1, 5)), ("lo", (1, 2))]) =
    .ok ⟨[some (7, 1)], [some (1, 2), some (1, 5), some (101, -1), none], 3, none, 7, ()⟩ := by
  decide +kernel

/-- The toy instance is total and binds no type variables, so `call_ok_or_invalid` and
    `call_keyword_order_irrelevant` apply to it. -/
example : toyOps.Total ∧ ∀ p c v b v', toyOps.matchTy p c v = .ok (b, v') → v' = v :=
  ⟨⟨fun p c _ => ⟨p == c, (), rfl⟩, fun t _ => ⟨(t, -1), rfl⟩, fun a => ⟨a, rfl⟩⟩, fun _ _ _ _ _ _ => rfl⟩

end Dynd
