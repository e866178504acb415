/-
The registry of callables (C107): what a path finds, what insertion changes, which observers are called, and what the
paths of entries are.
-/
import Verif.Model.FnRegistry

namespace Dynd

/-! ### Specification -/

/-- Names without a dot. -/
def NoDot (n : List Nat) : Prop := 46 ∉ n

/-- Names joined by dots. -/
def dotted : List (List Nat) → List Nat
  | [] => []
  | [n] => n
  | n :: ns => n ++ 46 :: dotted ns

/-- The entry reached by going from namespace to namespace by these names. -/
def entryAt : REntry → List (List Nat) → Option REntry
  | e, [] => some e
  | e, n :: ns => match e.kids.find n with
    | none => none
    | some c => entryAt c ns

/-- What a user sees under the names: whether it is a namespace, and the callable. -/
def contentAt (e : REntry) (ns : List (List Nat)) : Option (Bool × Nat) := (entryAt e ns).map fun x => (x.isNs, x.val)

/-- The path text of a location. -/
def locText : List (List Nat) → Option (List Nat)
  | [] => none
  | ns => some (dotted ns)

/-- Entries are visited in the order of their names: each key before the later ones. -/
inductive SortedKids : RKids → Prop
  | nil : SortedKids .nil
  | one (k : List Nat) (e : REntry) : SortedKids (.cons k e .nil)
  | cons (k : List Nat) (e : REntry) (k' : List Nat) (e' : REntry) (r : RKids) : bytesLt k k' = true →
      SortedKids (.cons k' e' r) → SortedKids (.cons k e (.cons k' e' r))

/-- Entries built from callables and braces, with non-empty names. -/
inductive Fresh : REntry → Prop
  | leaf (v : Nat) : Fresh (leafEntry v)
  | ns (ps : List (List Nat × REntry)) : (∀ p ∈ ps, Fresh p.2) → (∀ p ∈ ps, p.1 ≠ []) → Fresh (nsEntry ps)

/-! ### Texts -/

theorem splitDot_plain {n : List Nat} (h : NoDot n) : splitDot n = (n, none) := by
  induction n with
  | nil => rfl
  | cons c n ih =>
    have hc : c ≠ 46 := fun e => h (by simp [e])
    rw [splitDot, if_neg hc, ih (fun hm => h (by simp [hm]))]

theorem splitDot_dot {n : List Nat} (h : NoDot n) (r : List Nat) : splitDot (n ++ 46 :: r) = (n, some r) := by
  induction n with
  | nil => rfl
  | cons c n ih =>
    have hc : c ≠ 46 := fun e => h (by simp [e])
    rw [List.cons_append, splitDot, if_neg hc, ih (fun hm => h (by simp [hm]))]

/-- Every text is a list of names joined by dots, in one way. -/
theorem every_text_dotted (p : List Nat) : ∃ ns, ns ≠ [] ∧ (∀ n ∈ ns, NoDot n) ∧ p = dotted ns := by
  induction p with
  | nil => exact ⟨[[]], by simp, by simp [NoDot], rfl⟩
  | cons c p ih =>
    obtain ⟨ns, h1, h2, rfl⟩ := ih
    by_cases hc : c = 46
    · subst hc
      refine ⟨[] :: ns, by simp, ?_, ?_⟩
      · intro n hn
        rcases List.mem_cons.1 hn with rfl | hn
        · simp [NoDot]
        · exact h2 n hn
      · cases ns with
        | nil => exact absurd rfl h1
        | cons a r => rfl
    · cases ns with
      | nil => exact absurd rfl h1
      | cons a r =>
        refine ⟨(c :: a) :: r, by simp, ?_, ?_⟩
        · intro n hn
          rcases List.mem_cons.1 hn with rfl | hn
          · intro hm
            rcases List.mem_cons.1 hm with e | hm
            · exact hc e.symm
            · exact h2 a (by simp) hm
          · exact h2 n (by simp [hn])
        · cases r with
          | nil => rfl
          | cons b r => rfl

theorem dotted_cons {n : List Nat} {ns : List (List Nat)} (h : ns ≠ []) : dotted (n :: ns) = n ++ 46 :: dotted ns := by
  cases ns with
  | nil => exact absurd rfl h
  | cons a r => rfl

theorem dotted_length (ns : List (List Nat)) (h : ns ≠ []) : ns.length ≤ (dotted ns).length + 1 := by
  induction ns with
  | nil => exact absurd rfl h
  | cons a r ih =>
    cases r with
    | nil => simp [dotted]
    | cons b r =>
      have := ih (by simp)
      rw [dotted_cons (by simp), List.length_append]
      simp only [List.length_cons] at this ⊢
      omega

/-! ### What a path finds -/

theorem lookup_names (ns : List (List Nat)) (h0 : ns ≠ []) (h : ∀ n ∈ ns, NoDot n) : ∀ (f : Nat) (e : REntry), ns.length ≤ f →
    lookupEntry f e (dotted ns) = match entryAt e ns with | some x => .ok x | none => .throw .invalidArg := by
  induction ns with
  | nil => exact absurd rfl h0
  | cons n ns ih =>
    intro f e hf
    cases f with
    | zero => simp at hf
    | succ f =>
      rw [lookupEntry]
      cases ns with
      | nil =>
        rw [show dotted [n] = n from rfl, splitDot_plain (h n (by simp))]
        simp only [entryAt]
        cases e.kids.find n <;> rfl
      | cons a r =>
        rw [dotted_cons (by simp), splitDot_dot (h n (by simp))]
        simp only [entryAt]
        cases e.kids.find n with
        | none => rfl
        | some c => exact ih (by simp) (fun x hx => h x (by simp [hx])) f c (by simpa using hf)

/-- C107: a path finds exactly the entry its names lead to, and raises if there is none. -/
theorem registered_exact (root : REntry) (ns : List (List Nat)) (h0 : ns ≠ []) (h : ∀ n ∈ ns, NoDot n) :
    registeredAt root (dotted ns) = match entryAt root ns with | some x => .ok x | none => .throw .invalidArg :=
  lookup_names ns h0 h _ root (dotted_length ns h0)

/-- C107: no path text whatever leads to undefined behaviour. -/
theorem registered_total (root : REntry) (p : List Nat) : (∃ e, registeredAt root p = .ok e) ∨ registeredAt root p = .throw .invalidArg := by
  obtain ⟨ns, h1, h2, rfl⟩ := every_text_dotted p
  rw [registered_exact root ns h1 h2]
  cases entryAt root ns with
  | none => exact Or.inr rfl
  | some e => exact Or.inl ⟨e, rfl⟩

/-! ### Maps -/

theorem find_put (k k' : List Nat) (e : REntry) (ks : RKids) (h : ks.find k = none) :
    (ks.put k e).find k' = if k' = k then some e else ks.find k' := by
  induction ks using RKids.rec (motive_1 := fun _ => True) with
  | mk => trivial
  | nil => simp only [RKids.put, RKids.find]; by_cases hk : k' = k
           · simp [hk]
           · simp [hk, Ne.symm hk]
  | cons k2 e2 r _ ih =>
    rw [RKids.find] at h
    by_cases h2 : k2 = k
    · rw [if_pos h2] at h; cases h
    · rw [if_neg h2] at h
      rw [RKids.put]
      by_cases hlt : bytesLt k k2 = true
      · rw [if_pos hlt, RKids.find]
        by_cases hk : k' = k
        · subst hk; simp
        · rw [if_neg (fun e => hk e.symm), if_neg hk]
      · rw [if_neg hlt, RKids.find, ih h, RKids.find]
        by_cases hk : k' = k
        · subst hk; simp [h2]
        · simp [hk]

theorem find_set (k k' : List Nat) (e c : REntry) (ks : RKids) (h : ks.find k = some c) :
    (ks.set k e).find k' = if k' = k then some e else ks.find k' := by
  induction ks using RKids.rec (motive_1 := fun _ => True) with
  | mk => trivial
  | nil => simp [RKids.find] at h
  | cons k2 e2 r _ ih =>
    rw [RKids.find] at h
    rw [RKids.set]
    by_cases h2 : k2 = k
    · subst h2
      rw [if_pos rfl, RKids.find, RKids.find]
      by_cases hk : k' = k2
      · subst hk; simp
      · rw [if_neg (fun e => hk e.symm), if_neg hk, if_neg (fun e => hk e.symm)]
    · rw [if_neg h2] at h
      rw [if_neg h2, RKids.find, ih h, RKids.find]
      by_cases hk : k' = k
      · subst hk; simp [h2]
      · simp [hk]

theorem find_absoluteAll (nm k : List Nat) (ks : RKids) : (ks.absoluteAll nm).find k = (ks.find k).map (REntry.absolute nm) := by
  induction ks using RKids.rec (motive_1 := fun _ => True) with
  | mk => trivial
  | nil => rfl
  | cons k2 e2 r _ ih =>
    simp only [RKids.absoluteAll, RKids.find]
    by_cases h : k2 = k
    · simp [h]
    · simp [h, ih]

theorem find_absoluteOwn (k : List Nat) (ks : RKids) : (ks.absoluteOwn).find k = (ks.find k).map (REntry.absolute k) := by
  induction ks using RKids.rec (motive_1 := fun _ => True) with
  | mk => trivial
  | nil => rfl
  | cons k2 e2 r _ ih =>
    simp only [RKids.absoluteOwn, RKids.find]
    by_cases h : k2 = k
    · simp [h]
    · simp [h, ih]

/-- Renaming changes no content. -/
theorem absolute_content (nm : List Nat) : ∀ (ns : List (List Nat)) (e : REntry), contentAt (e.absolute nm) ns = contentAt e ns
  | [], .mk n b v ks os => by simp [contentAt, entryAt, REntry.absolute, REntry.isNs, REntry.val]
  | n :: ns, .mk nn b v ks os => by
    cases b with
    | false => simp [contentAt, entryAt, REntry.absolute, REntry.kids]
    | true =>
      simp only [contentAt, entryAt, REntry.absolute, REntry.kids, if_true, find_absoluteAll]
      cases ks.find n with
      | none => rfl
      | some c => exact absolute_content nm ns c

/-! ### Changing an entry -/

/-- The change at the end of a list of names. -/
theorem changeAt_names (act : REntry → Res (REntry × List RCall)) (ns : List (List Nat)) (h0 : ns ≠ [])
    (h : ∀ n ∈ ns, NoDot n) : ∀ (f : Nat) (e : REntry), ns.length ≤ f →
    (entryAt e ns = none ∧ changeAt act f e (dotted ns) = .throw .invalidArg) ∨
    ∃ x, entryAt e ns = some x ∧
      ((∃ ex, act x = .throw ex ∧ changeAt act f e (dotted ns) = .throw ex) ∨
       (act x = .ub ∧ changeAt act f e (dotted ns) = .ub) ∨
       ∃ x' ev e', act x = .ok (x', ev) ∧ changeAt act f e (dotted ns) = .ok (e', ev) ∧
        (e'.isNs, e'.val, e'.name, e'.obs) = (e.isNs, e.val, e.name, e.obs) ∧
        (∀ q, entryAt e' (ns ++ q) = entryAt x' q) ∧
        (∀ p, ¬ ns <+: p → contentAt x' [] = contentAt x [] → contentAt e' p = contentAt e p)) := by
  induction ns with
  | nil => exact absurd rfl h0
  | cons n ns ih =>
    intro f e hf
    obtain ⟨nm, b, v, ks, os⟩ := e
    cases f with
    | zero => simp at hf
    | succ f =>
      rw [changeAt]
      cases hfind : ks.find n with
      | none =>
        left
        refine ⟨by simp [entryAt, REntry.kids, hfind], ?_⟩
        cases ns with
        | nil => rw [show dotted [n] = n from rfl, splitDot_plain (h n (by simp))]; simp only [hfind]
        | cons a r => rw [dotted_cons (by simp), splitDot_dot (h n (by simp))]; simp only [hfind]
      | some c =>
        -- the tree with the child replaced
        have other : ∀ (c' : REntry) (p : List (List Nat)), p ≠ [] → p.head? ≠ some n →
            contentAt (.mk nm b v (ks.set n c') os) p = contentAt (.mk nm b v ks os) p := by
          intro c' p hp hh
          cases p with
          | nil => exact absurd rfl hp
          | cons a r =>
            have ha : a ≠ n := fun e => hh (by simp [e])
            simp only [contentAt, entryAt, REntry.kids, find_set n a c' c ks hfind, if_neg ha]
        cases ns with
        | nil =>
          right
          rw [show dotted [n] = n from rfl, splitDot_plain (h n (by simp))]
          simp only [hfind]
          refine ⟨c, by simp [entryAt, REntry.kids, hfind], ?_⟩
          cases hact : act c with
          | throw ex => exact Or.inl ⟨ex, rfl, rfl⟩
          | ub => exact Or.inr (Or.inl ⟨rfl, rfl⟩)
          | ok y =>
            obtain ⟨x', ev⟩ := y
            refine Or.inr (Or.inr ⟨x', ev, .mk nm b v (ks.set n x') os, rfl, rfl, rfl, ?_, ?_⟩)
            · intro q
              simp [entryAt, REntry.kids, find_set n n x' c ks hfind]
            · intro p hp _
              cases p with
              | nil => rfl
              | cons a r =>
                refine other x' (a :: r) (by simp) ?_
                intro e
                refine hp ?_
                simp at e; subst e
                exact ⟨r, rfl⟩
        | cons a r =>
          rw [dotted_cons (by simp), splitDot_dot (h n (by simp))]
          simp only [hfind]
          rcases ih (by simp) (fun x hx => h x (by simp [hx])) f c (by simpa using hf) with ⟨h1, h2⟩ | ⟨x, h1, h2⟩
          · left
            refine ⟨by simp only [entryAt, REntry.kids, hfind]; exact h1, ?_⟩
            rw [h2]; rfl
          · right
            refine ⟨x, by simp only [entryAt, REntry.kids, hfind]; exact h1, ?_⟩
            rcases h2 with ⟨ex, h3, h4⟩ | ⟨h3, h4⟩ | ⟨x', ev, c', h3, h4, h5, h6, h7⟩
            · exact Or.inl ⟨ex, h3, by rw [h4]; rfl⟩
            · exact Or.inr (Or.inl ⟨h3, by rw [h4]; rfl⟩)
            · refine Or.inr (Or.inr ⟨x', ev, .mk nm b v (ks.set n c') os, h3, by rw [h4]; rfl, rfl, ?_, ?_⟩)
              · intro q
                have := h6 q
                simp only [List.cons_append, entryAt, REntry.kids, find_set n n c' c ks hfind, if_true] at this ⊢
                exact this
              · intro p hp hsame
                cases p with
                | nil => rfl
                | cons a2 r2 =>
                  by_cases ha : a2 = n
                  · subst ha
                    have := h7 r2 (fun hpre => hp (by obtain ⟨t, ht⟩ := hpre; exact ⟨t, by rw [List.cons_append, ht]⟩)) hsame
                    simpa only [contentAt, entryAt, REntry.kids, find_set a2 a2 c' c ks hfind, if_true, hfind] using this
                  · exact other c' (a2 :: r2) (by simp) (by simpa using ha)

/-! ### Insertion and observation -/

theorem entryAt_append (ns : List (List Nat)) : ∀ (root x : REntry), entryAt root ns = some x → ∀ q, entryAt root (ns ++ q) = entryAt x q := by
  induction ns with
  | nil => intro root x hx q; simp [entryAt] at hx; subst hx; rfl
  | cons n ns ih =>
    intro root x hx q
    rw [entryAt] at hx
    rw [List.cons_append, entryAt]
    cases hf : root.kids.find n with
    | none => rw [hf] at hx; simp at hx
    | some c => rw [hf] at hx; exact ih c x hx q

/-- Insertion into an entry. -/
theorem insertHere_spec (k : List Nat) (e x : REntry) :
    (contentAt x [k] ≠ none ∧ insertHere k e x = .throw .runtime) ∨
    (contentAt x [k] = none ∧ ∃ x', insertHere k e x = .ok (x', x.obs.map fun o => ⟨o, k, e.absolute k⟩) ∧
      (∀ q, entryAt x' (k :: q) = entryAt (e.absolute k) q) ∧ ∀ p, ¬ [k] <+: p → contentAt x' p = contentAt x p) := by
  obtain ⟨nm, b, v, ks, os⟩ := x
  cases h : ks.find k with
  | some c =>
    left
    exact ⟨by simp [contentAt, entryAt, REntry.kids, h], by simp [insertHere, h]⟩
  | none =>
    right
    refine ⟨by simp [contentAt, entryAt, REntry.kids, h], .mk nm b v (ks.put k (e.absolute k)) os, by simp [insertHere, h, REntry.obs], ?_, ?_⟩
    · intro q
      simp [entryAt, REntry.kids, find_put k k (e.absolute k) ks h]
    · intro p hp
      cases p with
      | nil => rfl
      | cons a r =>
        have ha : a ≠ k := fun e => hp (by subst e; exact ⟨r, rfl⟩)
        simp only [contentAt, entryAt, REntry.kids, find_put k a (e.absolute k) ks h, if_neg ha]

theorem locText_cons {ns : List (List Nat)} (h : ns ≠ []) : locText ns = some (dotted ns) := by
  cases ns with
  | nil => exact absurd rfl h
  | cons a r => rfl

/-- C107: insertion of `e` under the name `k` into the namespace with the given names.  It raises `invalid_argument` if
    there is no such namespace and `runtime_error` if the name is taken; otherwise everything below the new name is what
    `e` holds, everything else is as before, and each observer of that namespace, in the order of registration, is called
    once with the name and the new entry. -/
theorem registry_insert_exact (root : REntry) (ns : List (List Nat)) (h : ∀ n ∈ ns, NoDot n) (k : List Nat) (e : REntry) :
    (entryAt root ns = none ∧ fnRegStep root (.insert (locText ns) k e) = .throw .invalidArg) ∨
    ∃ x, entryAt root ns = some x ∧
      ((contentAt root (ns ++ [k]) ≠ none ∧ fnRegStep root (.insert (locText ns) k e) = .throw .runtime) ∨
       (contentAt root (ns ++ [k]) = none ∧ ∃ root', fnRegStep root (.insert (locText ns) k e)
          = .ok (root', x.obs.map fun o => ⟨o, k, e.absolute k⟩) ∧
        (∀ q, contentAt root' (ns ++ k :: q) = contentAt e q) ∧
        (∀ p, ¬ (ns ++ [k]) <+: p → contentAt root' p = contentAt root p))) := by
  by_cases h0 : ns = []
  · subst h0
    right
    refine ⟨root, rfl, ?_⟩
    rcases insertHere_spec k e root with ⟨h1, h2⟩ | ⟨h1, x', h2, h3, h4⟩
    · exact Or.inl ⟨h1, h2⟩
    · refine Or.inr ⟨h1, x', h2, ?_, h4⟩
      intro q
      rw [List.nil_append, contentAt, h3 q]
      exact absolute_content k q e
  · have hstep : fnRegStep root (.insert (locText ns) k e) = changeAt (insertHere k e) ((dotted ns).length + 1) root (dotted ns) := by
      rw [locText_cons h0]; rfl
    rw [hstep]
    have hkid : ∀ x, entryAt root ns = some x → contentAt root (ns ++ [k]) = contentAt x [k] := by
      intro x hx
      rw [contentAt, entryAt_append ns root x hx [k], contentAt]
    rcases changeAt_names (insertHere k e) ns h0 h ((dotted ns).length + 1) root (dotted_length ns h0) with ⟨h1, h2⟩ | ⟨x, h1, h2⟩
    · exact Or.inl ⟨h1, h2⟩
    · right
      refine ⟨x, h1, ?_⟩
      rw [hkid x h1]
      rcases insertHere_spec k e x with ⟨g1, g2⟩ | ⟨g1, x', g2, g3, g4⟩
      · left
        refine ⟨g1, ?_⟩
        rcases h2 with ⟨ex, h3, h4⟩ | ⟨h3, _⟩ | ⟨x', ev, e', h3, _⟩
        · rw [g2] at h3; cases h3; exact h4
        · rw [g2] at h3; cases h3
        · rw [g2] at h3; cases h3
      · right
        refine ⟨g1, ?_⟩
        rcases h2 with ⟨ex, h3, h4⟩ | ⟨h3, _⟩ | ⟨x2, ev, e', h3, h4, _, h6, h7⟩
        · rw [g2] at h3; cases h3
        · rw [g2] at h3; cases h3
        · rw [g2] at h3
          simp only [Res.ok.injEq, Prod.mk.injEq] at h3
          obtain ⟨rfl, rfl⟩ := h3
          refine ⟨e', h4, ?_, ?_⟩
          · intro q
            rw [contentAt, h6 (k :: q), g3 q]
            exact absolute_content k q e
          · intro p hp
            by_cases hpre : ns <+: p
            · obtain ⟨q, rfl⟩ := hpre
              have hq : ¬ [k] <+: q := by
                rintro ⟨t, rfl⟩
                exact hp ⟨t, by simp⟩
              have e1 : contentAt root (ns ++ q) = contentAt x q := by
                rw [contentAt, entryAt_append ns root x h1 q, contentAt]
              rw [contentAt, h6 q, e1]
              exact g4 q hq
            · exact h7 p hpre (g4 [] (by rintro ⟨t, ht⟩; simp at ht))

/-- C107: registering an observer changes no content and calls nobody. -/
theorem registry_observe_exact (root : REntry) (ns : List (List Nat)) (h : ∀ n ∈ ns, NoDot n) (o : Nat) :
    (entryAt root ns = none ∧ fnRegStep root (.observe (locText ns) o) = .throw .invalidArg) ∨
    ∃ x root' x', entryAt root ns = some x ∧ fnRegStep root (.observe (locText ns) o) = .ok (root', []) ∧
      entryAt root' ns = some x' ∧ x'.obs = x.obs ++ [o] ∧ ∀ p, contentAt root' p = contentAt root p := by
  have hsame : ∀ (x : REntry), ∃ x', observeHere o x = .ok (x', []) ∧ x'.obs = x.obs ++ [o] ∧ ∀ p, contentAt x' p = contentAt x p := by
    rintro ⟨nm, b, v, ks, os⟩
    refine ⟨.mk nm b v ks (os ++ [o]), rfl, rfl, ?_⟩
    intro p
    cases p with
    | nil => rfl
    | cons a r => rfl
  by_cases h0 : ns = []
  · subst h0
    right
    obtain ⟨x', h1, h2, h3⟩ := hsame root
    exact ⟨root, x', x', rfl, h1, rfl, h2, h3⟩
  · have hstep : fnRegStep root (.observe (locText ns) o) = changeAt (observeHere o) ((dotted ns).length + 1) root (dotted ns) := by
      rw [locText_cons h0]; rfl
    rw [hstep]
    rcases changeAt_names (observeHere o) ns h0 h ((dotted ns).length + 1) root (dotted_length ns h0) with ⟨h1, h2⟩ | ⟨x, h1, h2⟩
    · exact Or.inl ⟨h1, h2⟩
    · right
      obtain ⟨y, g1, g2, g3⟩ := hsame x
      rcases h2 with ⟨ex, h3, h4⟩ | ⟨h3, _⟩ | ⟨x2, ev, e', h3, h4, _, h6, h7⟩
      · rw [g1] at h3; cases h3
      · rw [g1] at h3; cases h3
      · rw [g1] at h3
        simp only [Res.ok.injEq, Prod.mk.injEq] at h3
        obtain ⟨rfl, rfl⟩ := h3
        refine ⟨x, e', y, h1, h4, by simpa [entryAt] using h6 [], g2, ?_⟩
        intro p
        by_cases hpre : ns <+: p
        · obtain ⟨q, rfl⟩ := hpre
          rw [contentAt, h6 q, contentAt, entryAt_append ns root x h1 q]
          exact g3 q
        · exact h7 p hpre (g3 [])

/-- every call, with every location text -/
theorem fnRegStep_cases (root : REntry) (op : ROp) :
    fnRegStep root op = .throw .invalidArg ∨ fnRegStep root op = .throw .runtime ∨ ∃ root' ev, fnRegStep root op = .ok (root', ev) ∧
      ∀ p c, contentAt root p = some c → contentAt root' p = some c := by
  obtain ⟨ns, hns, hloc⟩ : ∃ ns, (∀ n ∈ ns, NoDot n) ∧ op.loc = locText ns := by
    cases hl : op.loc with
    | none => exact ⟨[], by simp, rfl⟩
    | some p =>
      obtain ⟨ns, h1, h2, rfl⟩ := every_text_dotted p
      exact ⟨ns, h2, (locText_cons h1).symm⟩
  cases op with
  | insert l k e =>
    simp only [ROp.loc] at hloc; subst hloc
    rcases registry_insert_exact root ns hns k e with ⟨_, h⟩ | ⟨x, _, ⟨_, h⟩ | ⟨h0, root', h1, h2, h3⟩⟩
    · exact Or.inl h
    · exact Or.inr (Or.inl h)
    · refine Or.inr (Or.inr ⟨root', _, h1, ?_⟩)
      intro p c hc
      by_cases hp : (ns ++ [k]) <+: p
      · exfalso
        obtain ⟨q, rfl⟩ := hp
        -- nothing is below a name that is not there
        have : entryAt root (ns ++ [k]) = none := by simpa [contentAt] using h0
        have hn : entryAt root ((ns ++ [k]) ++ q) = none := by
          have gen : ∀ (a : List (List Nat)) (r : REntry), entryAt r a = none → entryAt r (a ++ q) = none := by
            intro a
            induction a with
            | nil => intro r hr; simp [entryAt] at hr
            | cons n a ih =>
              intro r hr
              rw [entryAt] at hr
              rw [List.cons_append, entryAt]
              cases hf : r.kids.find n with
              | none => rfl
              | some c => rw [hf] at hr; exact ih c hr
          exact gen _ _ this
        rw [contentAt, hn] at hc; cases hc
      · rw [h3 p hp]; exact hc
  | observe l o =>
    simp only [ROp.loc] at hloc; subst hloc
    rcases registry_observe_exact root ns hns o with ⟨_, h⟩ | ⟨x, root', x', _, h1, _, _, h2⟩
    · exact Or.inl h
    · exact Or.inr (Or.inr ⟨root', _, h1, fun p c hc => by rw [h2 p]; exact hc⟩)

/-- C107: over any history of insertions and observations, with any paths, whatever was registered stays, with the
    same callable. -/
theorem registry_keeps (root : REntry) (ops : List ROp) (p : List (List Nat)) (c : Bool × Nat) (h : contentAt root p = some c) :
    contentAt (fnRegRun root ops).1 p = some c := by
  induction ops generalizing root with
  | nil => exact h
  | cons op ops ih =>
    rw [fnRegRun]
    rcases fnRegStep_cases root op with h1 | h1 | ⟨root', ev, h1, h2⟩
    · rw [h1]; exact ih root h
    · rw [h1]; exact ih root h
    · rw [h1]; exact ih root' (h2 p c h)

/-- C107: no call has undefined behaviour. -/
theorem registry_noub (root : REntry) (op : ROp) : fnRegStep root op ≠ .ub := by
  rcases fnRegStep_cases root op with h1 | h1 | ⟨root', ev, h1, _⟩ <;> rw [h1] <;> simp

/-! ### The order of the entries -/

theorem bytesLt_total {a b : List Nat} (h : bytesLt a b = false) (hne : a ≠ b) : bytesLt b a = true := by
  induction a generalizing b with
  | nil =>
    cases b with
    | nil => exact absurd rfl hne
    | cons y b => simp [bytesLt] at h
  | cons x a ih =>
    cases b with
    | nil => rfl
    | cons y b =>
      simp only [bytesLt, Bool.or_eq_false_iff, Bool.and_eq_false_iff, decide_eq_false_iff_not] at h
      simp only [bytesLt, Bool.or_eq_true, Bool.and_eq_true, decide_eq_true_eq]
      by_cases hxy : x = y
      · subst hxy
        refine Or.inr ⟨rfl, ih ?_ (fun e => hne (by rw [e]))⟩
        rcases h.2 with h | h
        · exact absurd rfl h
        · exact h
      · left; omega

/-- C107: entries are visited in the order of their names, also after insertions. -/
theorem sorted_put (k : List Nat) (e : REntry) (ks : RKids) (h : ks.find k = none) (hs : SortedKids ks) : SortedKids (ks.put k e) := by
  induction hs with
  | nil => exact .one k e
  | one k1 e1 =>
    have hne : k1 ≠ k := by intro e; simp [RKids.find, e] at h
    rw [RKids.put]
    by_cases hlt : bytesLt k k1 = true
    · rw [if_pos hlt]; exact .cons _ _ _ _ _ hlt (.one _ _)
    · rw [if_neg hlt, RKids.put]
      exact .cons _ _ _ _ _ (bytesLt_total (by simpa using hlt) (Ne.symm hne)) (.one _ _)
  | cons k1 e1 k2 e2 r h12 hr ih =>
    have hne : k1 ≠ k := by intro e; simp [RKids.find, e] at h
    rw [RKids.put]
    by_cases hlt : bytesLt k k1 = true
    · rw [if_pos hlt]; exact .cons _ _ _ _ _ hlt (.cons _ _ _ _ _ h12 hr)
    · rw [if_neg hlt]
      have h2 : (RKids.cons k2 e2 r).find k = none := by rw [RKids.find, if_neg hne] at h; exact h
      have ih2 := ih h2
      rw [RKids.put] at ih2 ⊢
      by_cases hlt2 : bytesLt k k2 = true
      · rw [if_pos hlt2] at ih2 ⊢
        exact .cons _ _ _ _ _ (bytesLt_total (by simpa using hlt) (Ne.symm hne)) ih2
      · rw [if_neg hlt2] at ih2 ⊢
        exact .cons _ _ _ _ _ h12 ih2

theorem sorted_init (ps : List (List Nat × REntry)) : ∀ ks, SortedKids ks → SortedKids (initMap ps ks) := by
  induction ps with
  | nil => intro ks h; exact h
  | cons p ps ih =>
    intro ks h
    obtain ⟨k, e⟩ := p
    rw [initMap]
    refine ih _ ?_
    cases hf : ks.find k with
    | some c => exact h
    | none => exact sorted_put k e ks hf h

/-! ### The paths of entries -/

mutual
/-- Only namespaces have entries below them. -/
def OnlyNs : REntry → Prop
  | .mk _ b _ ks _ => (ks ≠ .nil → b = true) ∧ OnlyNsAll ks
/-- all of them -/
def OnlyNsAll : RKids → Prop
  | .nil => True
  | .cons _ e r => OnlyNs e ∧ OnlyNsAll r
end

theorem onlyNs_find {ks : RKids} (h : OnlyNsAll ks) {k : List Nat} {c : REntry} (hf : ks.find k = some c) : OnlyNs c := by
  induction ks using RKids.rec (motive_1 := fun _ => True) with
  | mk => trivial
  | nil => simp [RKids.find] at hf
  | cons k2 e2 r _ ih =>
    simp only [OnlyNsAll] at h
    rw [RKids.find] at hf
    by_cases h2 : k2 = k
    · rw [if_pos h2] at hf; cases hf; exact h.1
    · rw [if_neg h2] at hf; exact ih h.2 hf

theorem absolute_at (nm : List Nat) : ∀ (ns : List (List Nat)) (e : REntry), OnlyNs e →
    entryAt (e.absolute nm) ns = (entryAt e ns).map (REntry.absolute nm)
  | [], e, _ => rfl
  | n :: ns, .mk nn b v ks os, h => by
    simp only [OnlyNs] at h
    cases b with
    | false =>
      have : ks = .nil := by
        cases ks with
        | nil => rfl
        | cons k e r => exact absurd (h.1 (by simp)) (by simp)
      subst this
      simp [entryAt, REntry.absolute, REntry.kids, RKids.find]
    | true =>
      simp only [entryAt, REntry.absolute, REntry.kids, if_true, find_absoluteAll]
      cases hf : ks.find n with
      | none => rfl
      | some c => exact absolute_at nm ns c (onlyNs_find h.2 hf)

/-- An entry whose own path is empty and in which the path of every entry is the names leading to it. -/
def RelNamed (e : REntry) : Prop :=
  e.name = [] ∧ OnlyNs e ∧ ∀ ns x, ns ≠ [] → entryAt e ns = some x → x.name = dotted ns ∧ dotted ns ≠ []

mutual
theorem onlyNs_absolute (nm : List Nat) : ∀ e, OnlyNs e → OnlyNs (e.absolute nm)
  | .mk n b v ks os, h => by
    simp only [OnlyNs, REntry.absolute] at h ⊢
    cases b with
    | false => exact ⟨by simpa using h.1, by simpa using h.2⟩
    | true => exact ⟨fun _ => rfl, by simpa using onlyNsAll_absolute nm ks h.2⟩
theorem onlyNsAll_absolute (nm : List Nat) : ∀ ks, OnlyNsAll ks → OnlyNsAll (ks.absoluteAll nm)
  | .nil, h => h
  | .cons k e r, h => by
    simp only [OnlyNsAll, RKids.absoluteAll] at h ⊢
    exact ⟨onlyNs_absolute nm e h.1, onlyNsAll_absolute nm r h.2⟩
end

theorem name_absolute (nm : List Nat) (e : REntry) : (e.absolute nm).name = if e.name = [] then nm else nm ++ 46 :: e.name := by
  obtain ⟨n, b, v, ks, os⟩ := e; rfl

/-- Inside its own name an entry that is named relatively is named right. -/
theorem relNamed_absolute {e : REntry} (h : RelNamed e) (k : List Nat) (ns : List (List Nat)) (x : REntry)
    (hx : entryAt (e.absolute k) ns = some x) : x.name = dotted (k :: ns) := by
  rw [absolute_at k ns e h.2.1] at hx
  obtain ⟨y, hy, rfl⟩ := Option.map_eq_some_iff.1 hx
  rw [name_absolute]
  by_cases h0 : ns = []
  · subst h0
    simp only [entryAt, Option.some.injEq] at hy
    subst hy
    rw [if_pos h.1]; rfl
  · obtain ⟨e1, e2⟩ := h.2.2 ns y h0 hy
    rw [e1, if_neg e2, dotted_cons h0]

theorem initMap_find (ps : List (List Nat × REntry)) (P : List Nat → REntry → Prop) : ∀ ks, (∀ k c, ks.find k = some c → P k c) →
    (∀ p ∈ ps, P p.1 p.2) → ∀ k c, (initMap ps ks).find k = some c → P k c := by
  induction ps with
  | nil => intro ks h _; exact h
  | cons p ps ih =>
    intro ks h hp
    obtain ⟨k, e⟩ := p
    rw [initMap]
    refine ih _ ?_ (fun q hq => hp q (by simp [hq]))
    cases hf : ks.find k with
    | some c => exact h
    | none =>
      intro k' c' hc
      simp only [find_put k k' e ks hf] at hc
      by_cases hk : k' = k
      · rw [if_pos hk] at hc; cases hc; subst hk; exact hp (k', e) (by simp)
      · rw [if_neg hk] at hc; exact h k' c' hc

theorem initMap_onlyNs (ps : List (List Nat × REntry)) (h : ∀ p ∈ ps, OnlyNs p.2) : ∀ ks, OnlyNsAll ks → OnlyNsAll (initMap ps ks) := by
  have hput : ∀ (k : List Nat) (e : REntry) (ks : RKids), OnlyNs e → OnlyNsAll ks → OnlyNsAll (ks.put k e) := by
    intro k e ks he hk
    induction ks using RKids.rec (motive_1 := fun _ => True) with
    | mk => trivial
    | nil => exact ⟨he, trivial⟩
    | cons k2 e2 r _ ih =>
      simp only [OnlyNsAll] at hk
      rw [RKids.put]
      by_cases hlt : bytesLt k k2 = true
      · rw [if_pos hlt]; exact ⟨he, hk⟩
      · rw [if_neg hlt]; exact ⟨hk.1, ih hk.2⟩
  induction ps with
  | nil => intro ks hk; exact hk
  | cons p ps ih =>
    intro ks hk
    obtain ⟨k, e⟩ := p
    rw [initMap]
    refine ih (fun q hq => h q (by simp [hq])) _ ?_
    cases hf : ks.find k with
    | some c => exact hk
    | none => exact hput k e ks (h (k, e) (by simp)) hk

theorem fresh_named {e : REntry} (h : Fresh e) : RelNamed e := by
  induction h with
  | leaf v =>
    refine ⟨rfl, by simp [leafEntry, OnlyNs, OnlyNsAll], ?_⟩
    intro ns x h0 hx
    cases ns with
    | nil => exact absurd rfl h0
    | cons n ns => simp [entryAt, leafEntry, REntry.kids, RKids.find] at hx
  | ns ps hps hne ih =>
    have hown : ∀ ks, OnlyNsAll ks → OnlyNsAll ks.absoluteOwn := by
      intro ks
      induction ks using RKids.rec (motive_1 := fun _ => True) with
      | mk => trivial
      | nil => exact fun h => h
      | cons k e r _ ih2 =>
        intro h
        simp only [OnlyNsAll, RKids.absoluteOwn] at h ⊢
        exact ⟨onlyNs_absolute k e h.1, ih2 h.2⟩
    refine ⟨rfl, ?_, ?_⟩
    · simp only [nsEntry, OnlyNs]
      exact ⟨fun _ => trivial, hown _ (initMap_onlyNs ps (fun p hp => (ih p hp).2.1) .nil (by simp [OnlyNsAll]))⟩
    · intro ns x h0 hx
      cases ns with
      | nil => exact absurd rfl h0
      | cons n ns =>
        simp only [entryAt, nsEntry, REntry.kids, find_absoluteOwn] at hx
        cases hf : (initMap ps .nil).find n with
        | none => rw [hf] at hx; simp at hx
        | some c =>
          rw [hf] at hx
          have hc := initMap_find ps (fun k c => RelNamed c ∧ k ≠ []) .nil (by simp [RKids.find])
            (fun p hp => ⟨ih p hp, hne p hp⟩) n c hf
          refine ⟨relNamed_absolute hc.1 n ns x hx, ?_⟩
          cases ns with
          | nil => exact hc.2
          | cons a r => rw [dotted_cons (by simp)]; simp

/-- C107: in a registry built from braces, the path of each entry is the text that finds it. -/
theorem registry_paths_partial (ps : List (List Nat × REntry)) (h : Fresh (nsEntry ps)) (ns : List (List Nat)) (h0 : ns ≠ [])
    (hn : ∀ n ∈ ns, NoDot n) (x : REntry) (hx : registeredAt (nsEntry ps) (dotted ns) = .ok x) : x.name = dotted ns := by
  rw [registered_exact _ ns h0 hn] at hx
  cases he : entryAt (nsEntry ps) ns with
  | none => rw [he] at hx; cases hx
  | some y =>
    rw [he] at hx
    cases hx
    exact ((fresh_named h).2.2 ns x h0 he).1

/-- C107: and also after the insertion of a fresh entry at the top. -/
theorem registry_paths_insert_partial (root root' : REntry) (ev : List RCall) (k : List Nat) (e : REntry) (he : Fresh e)
    (hr : fnRegStep root (.insert none k e) = .ok (root', ev)) (ns : List (List Nat)) (x : REntry)
    (hx : entryAt root' (k :: ns) = some x) : x.name = dotted (k :: ns) := by
  rcases insertHere_spec k e root with ⟨_, h2⟩ | ⟨_, x', h2, h3, _⟩
  · rw [show fnRegStep root (.insert none k e) = insertHere k e root from rfl, h2] at hr; cases hr
  · rw [show fnRegStep root (.insert none k e) = insertHere k e root from rfl, h2] at hr
    cases hr
    rw [h3 ns] at hx
    exact relNamed_absolute (fresh_named he) k ns x hx

/-! ### Where paths go wrong, and a concrete registry -/

/-- the result of a call, seen through `f` -/
def resSeen {α β : Type} (f : α → β) : Res α → Res β
  | .ok a => .ok (f a)
  | .throw e => .throw e
  | .ub => .ub

/-- the bytes of a text -/
def regText (t : String) : List Nat := t.toList.map Char.toNat

/-- `{dynd: {nd: {add: 1, sum: 2}, ndt: {}}}` -/
def exRegistry : REntry :=
  nsEntry [(regText "dynd", nsEntry [(regText "nd", nsEntry [(regText "sum", leafEntry 2), (regText "add", leafEntry 1)]),
    (regText "ndt", nsEntry [])])]

/-- What a user sees of the entry found by a path: its own path and its callable. -/
def seenAt (r : REntry) (p : String) : Res (List Nat × Nat) := resSeen (fun e => (e.name, e.val)) (registeredAt r (regText p))

/-- The path of the entry found after a history. -/
def seenAfter (ops : List ROp) (p : String) : Res (List Nat × Nat) := seenAt (fnRegRun exRegistry ops).1 p

/-- C107 does not hold for entries inserted into a nested namespace: `registered("dynd.nd").insert({"mkl", ...})` gives
    the entry, and what is inside it, a path that finds nothing, because only the last name is put in front. -/
theorem registry_paths_nested_violated :
    seenAfter [.insert (some (regText "dynd.nd")) (regText "mkl") (nsEntry [(regText "fft", leafEntry 7)])] "dynd.nd.mkl.fft"
      = .ok (regText "mkl.fft", 7) ∧
    seenAfter [.insert (some (regText "dynd.nd")) (regText "mkl") (nsEntry [(regText "fft", leafEntry 7)])] "mkl.fft"
      = .throw .invalidArg := by decide +kernel

/-- C107 does not hold for an entry inserted a second time under another name: its old path is kept as a suffix. -/
theorem registry_paths_alias_violated :
    (match registeredAt exRegistry (regText "dynd.nd.add") with
      | .ok e => seenAfter [.insert none (regText "plus") e] "plus"
      | _ => .ub) = .ok (regText "plus.dynd.nd.add", 1) := by decide +kernel

/-- C107 does not hold for names with dots: the insertion succeeds and no path finds the entry, not even its own. -/
theorem registry_dot_violated :
    resSeen (fun r => contentAt r.1 [regText "a.b"]) (fnRegStep exRegistry (.insert none (regText "a.b") (leafEntry 9))) = .ok (some (false, 9)) ∧
    seenAfter [.insert none (regText "a.b") (leafEntry 9)] "a.b" = .throw .invalidArg := by decide +kernel

/-- an entry under a name with a dot is found by no path at all, in any registry: every path goes by names without dots -/
theorem registry_dot_unreachable (root : REntry) (p : List Nat) (e : REntry) (h : registeredAt root p = .ok e) :
    ∃ ns, ns ≠ [] ∧ (∀ n ∈ ns, NoDot n) ∧ p = dotted ns ∧ entryAt root ns = some e := by
  obtain ⟨ns, h1, h2, rfl⟩ := every_text_dotted p
  refine ⟨ns, h1, h2, rfl, ?_⟩
  rw [registered_exact root ns h1 h2] at h
  cases he : entryAt root ns with
  | none => rw [he] at h; cases h
  | some y => rw [he] at h; cases h; rfl

/-- the example registry is one built from braces -/
example : Fresh exRegistry := by
  refine .ns _ ?_ (by decide)
  simp only [List.mem_singleton, forall_eq]
  refine .ns _ ?_ (by decide)
  intro p hp
  simp only [List.mem_cons, List.not_mem_nil, or_false] at hp
  rcases hp with rfl | rfl
  · refine .ns _ ?_ (by decide)
    intro p hp
    simp only [List.mem_cons, List.not_mem_nil, or_false] at hp
    rcases hp with rfl | rfl <;> exact .leaf _
  · exact .ns _ (by simp) (by simp)

example : seenAt exRegistry "dynd.nd.add" = .ok (regText "dynd.nd.add", 1) ∧ seenAt exRegistry "dynd" = .ok (regText "dynd", 0) ∧
    seenAt exRegistry "dynd.add" = .throw .invalidArg ∧ seenAt exRegistry "" = .throw .invalidArg ∧
    seenAt exRegistry "dynd." = .throw .invalidArg := by decide +kernel

/-- two observers, then an insertion: both are called, in order, with the new entry; a second insertion raises -/
example : ((fnRegRun exRegistry [.observe (some (regText "dynd.nd")) 5, .observe (some (regText "dynd.nd")) 6,
      .insert (some (regText "dynd.nd")) (regText "mul") (leafEntry 3), .insert (some (regText "dynd")) (regText "x") (leafEntry 4)]).2.map
      fun c => (c.obs, c.key, c.entry.val)) = [(5, regText "mul", 3), (6, regText "mul", 3)] := by decide +kernel

example : resSeen (fun _ => ()) (fnRegStep exRegistry (.insert (some (regText "dynd.nd")) (regText "add") (leafEntry 3))) = .throw .runtime := by
  decide +kernel

end Dynd
