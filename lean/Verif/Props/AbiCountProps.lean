import Verif.Model.AbiCount
/-
Reference counts of the C interface in any thread schedule (C112).
-/
namespace Dynd

/-- References held by all threads together. -/
def heldRefs (ts : List CtThread) : Nat := (ts.map (·.refs)).sum

theorem heldRefs_set {ts : List CtThread} {i : Nat} {t u : CtThread} (h : ts[i]? = some t) :
    heldRefs (ts.set i u) + t.refs = heldRefs ts + u.refs := by
  induction ts generalizing i with
  | nil => simp at h
  | cons x ts ih =>
    cases i with
    | zero => simp at h; subst h; simp [heldRefs]; omega
    | succ i =>
      simp only [List.getElem?_cons_succ] at h
      have := ih h
      simp only [heldRefs, List.set_cons_succ, List.map_cons, List.sum_cons] at this ⊢
      omega

theorem refs_le_held {ts : List CtThread} {t : CtThread} (h : t ∈ ts) : t.refs ≤ heldRefs ts := by
  induction ts with
  | nil => cases h
  | cons x ts ih =>
    simp only [heldRefs, List.map_cons, List.sum_cons] at ih ⊢
    rcases List.mem_cons.1 h with rfl | h
    · omega
    · have := ih h; omega

theorem held_zero {ts : List CtThread} (h : ∀ t ∈ ts, t.refs = 0) : heldRefs ts = 0 := by
  induction ts with
  | nil => rfl
  | cons x ts ih =>
    simp only [heldRefs, List.map_cons, List.sum_cons] at ih ⊢
    rw [h x (by simp), ih fun t ht => h t (List.mem_cons_of_mem _ ht)]

/-- Every access is published with the count or known to a thread that holds a reference. -/
def CtKnown (s : CtState) : Prop := ∀ e < s.events, e ∈ s.msg ∨ ∃ t ∈ s.threads, 0 < t.refs ∧ e ∈ t.view

/-- One thread is between the last decrement and the call of `release`. -/
def CtDying (s : CtState) : Prop :=
  ∃ (i : Nat) (t : CtThread), s.threads[i]? = some t ∧ (∀ (j : Nat) (u : CtThread), j ≠ i → s.threads[j]? = some u → u.pc = .idle) ∧
    ((t.pc = .fence ∧ ∀ e < s.events, e ∈ t.view ∨ e ∈ t.acq) ∨ (t.pc = .call ∧ ∀ e < s.events, e ∈ t.view))

structure CtInv (s : CtState) : Prop where
  count : s.count = heldRefs s.threads
  known : CtKnown s
  life : (s.freed = 0 ∧ 0 < s.count ∧ ∀ t ∈ s.threads, t.pc = .idle) ∨ (s.freed = 0 ∧ s.count = 0 ∧ CtDying s) ∨
    (s.freed = 1 ∧ s.count = 0 ∧ ∀ t ∈ s.threads, t.pc = .idle)

theorem mem_of_get {ts : List CtThread} {i : Nat} {t : CtThread} (h : ts[i]? = some t) : t ∈ ts := List.mem_of_getElem? h

theorem mem_set_cases {ts : List CtThread} {i : Nat} {u x : CtThread} (h : x ∈ ts.set i u) : x ∈ ts ∨ x = u :=
  List.mem_or_eq_of_mem_set h

theorem mem_set_new {ts : List CtThread} {i : Nat} {t u : CtThread} (h : ts[i]? = some t) : u ∈ ts.set i u := by
  obtain ⟨hlt, _⟩ := List.getElem?_eq_some_iff.1 h
  exact List.mem_of_getElem? (i := i) (by rw [List.getElem?_set_self hlt])

/-- the witness of an access after a thread has changed -/
theorem known_set {ts : List CtThread} {i : Nat} {t u : CtThread} (h : ts[i]? = some t) (hr : 0 < t.refs → 0 < u.refs)
    (hv : ∀ e ∈ t.view, e ∈ u.view) {e : Nat} (hk : ∃ x ∈ ts, 0 < x.refs ∧ e ∈ x.view) : ∃ x ∈ ts.set i u, 0 < x.refs ∧ e ∈ x.view := by
  obtain ⟨x, hx, h1, h2⟩ := hk
  obtain ⟨k, hk⟩ := List.mem_iff_getElem?.1 hx
  by_cases hki : k = i
  · subst hki
    rw [h] at hk; injection hk with hk; subst hk
    exact ⟨u, mem_set_new h, hr h1, hv e h2⟩
  · exact ⟨x, List.mem_of_getElem? (i := k) (by rw [List.getElem?_set_ne (Ne.symm hki)]; exact hk), h1, h2⟩

/-- a thread that holds a reference: the resource is alive -/
theorem CtInv.alive {s : CtState} (hi : CtInv s) {i : Nat} {t : CtThread} (ht : s.threads[i]? = some t) (hr : 0 < t.refs) :
    s.freed = 0 ∧ 0 < s.count ∧ ∀ t ∈ s.threads, t.pc = .idle := by
  have hpos : 0 < s.count := by
    have := refs_le_held (mem_of_get ht)
    rw [hi.count]; omega
  rcases hi.life with h | h | h
  · exact h
  · omega
  · omega

theorem CtInv.step {s : CtState} {op : CtOp} (hi : CtInv s) (hop : ctMay s op) :
    ∃ s', ctStep .standard s op = .ok s' ∧ CtInv s' := by
  cases op with
  | use i =>
    obtain ⟨t, ht, _, hr⟩ := hop
    obtain ⟨hf, hc, hid⟩ := hi.alive ht hr
    refine ⟨{ s with events := s.events + 1, threads := s.threads.set i { t with view := s.events :: t.view } }, by simp [ctStep, ht, hf], ?_⟩
    have hh := heldRefs_set (u := { t with view := s.events :: t.view }) ht
    refine ⟨?_, ?_, Or.inl ⟨hf, hc, ?_⟩⟩
    · have := hi.count; simp only at hh ⊢; omega
    · intro e he
      simp only at he ⊢
      by_cases hnew : e = s.events
      · right; exact ⟨_, mem_set_new ht, hr, by rw [hnew]; simp⟩
      · rcases hi.known e (by omega) with h | h
        · exact Or.inl h
        · exact Or.inr (known_set (u := { t with view := s.events :: t.view }) ht (fun h => h) (fun e h => List.mem_cons_of_mem _ h) h)
    · intro x hx
      rcases mem_set_cases hx with h | rfl
      · exact hid x h
      · exact hid t (mem_of_get ht)
  | incref i =>
    obtain ⟨t, ht, _, hr, hlt⟩ := hop
    obtain ⟨hf, hc, hid⟩ := hi.alive ht hr
    refine ⟨{ s with count := (s.count + 1) % 2 ^ 64, threads := s.threads.set i { t with refs := t.refs + 1, acq := t.acq ++ s.msg } },
      by simp [ctStep, ht, hf], ?_⟩
    have hh := heldRefs_set (u := { t with refs := t.refs + 1, acq := t.acq ++ s.msg }) ht
    have hm : (s.count + 1) % 2 ^ 64 = s.count + 1 := Nat.mod_eq_of_lt hlt
    refine ⟨?_, ?_, Or.inl ⟨hf, ?_, ?_⟩⟩
    · have := hi.count; simp only at hh ⊢; rw [hm]; omega
    · intro e he
      rcases hi.known e he with h | h
      · exact Or.inl h
      · exact Or.inr (known_set (u := { t with refs := t.refs + 1, acq := t.acq ++ s.msg }) ht (fun _ => Nat.succ_pos _) (fun e h => h) h)
    · simp only; rw [hm]; omega
    · intro x hx
      rcases mem_set_cases hx with h | rfl
      · exact hid x h
      · exact hid t (mem_of_get ht)
  | decref i =>
    obtain ⟨t, ht, _, hr⟩ := hop
    obtain ⟨hf, hc, hid⟩ := hi.alive ht hr
    have hdec : ctDec s.count = s.count - 1 := by rw [ctDec, if_neg (by omega)]
    refine ⟨{ s with
        count := ctDec s.count,
        msg := s.msg ++ t.view,
        threads := s.threads.set i { t with
          refs := t.refs - 1,
          acq := t.acq ++ s.msg, pc := if CtBranch.standard.result s.count (ctDec s.count) = 1 then .fence else .idle } }, by simp [ctStep, ht, hf], ?_⟩
    have hh := heldRefs_set (u := { t with refs := t.refs - 1, acq := t.acq ++ s.msg, pc := if CtBranch.standard.result s.count (ctDec s.count) = 1 then .fence else .idle }) ht
    have hcount : ctDec s.count = heldRefs (s.threads.set i { t with refs := t.refs - 1, acq := t.acq ++ s.msg, pc := if CtBranch.standard.result s.count (ctDec s.count) = 1 then .fence else .idle }) := by
      have := hi.count; simp only at hh; rw [hdec] at hh ⊢; omega
    have hknown : ∀ e < s.events, e ∈ s.msg ++ t.view ∨ ∃ x ∈ s.threads.set i { t with refs := t.refs - 1, acq := t.acq ++ s.msg, pc := if CtBranch.standard.result s.count (ctDec s.count) = 1 then .fence else .idle }, 0 < x.refs ∧ e ∈ x.view := by
      intro e he
      rcases hi.known e he with h | ⟨x, hx, h1, h2⟩
      · exact Or.inl (List.mem_append_left _ h)
      · obtain ⟨k, hk⟩ := List.mem_iff_getElem?.1 hx
        by_cases hki : k = i
        · subst hki
          rw [ht] at hk; injection hk with hk; subst hk
          exact Or.inl (List.mem_append_right _ h2)
        · exact Or.inr ⟨x, List.mem_of_getElem? (i := k) (by rw [List.getElem?_set_ne (Ne.symm hki)]; exact hk), h1, h2⟩
    refine ⟨hcount, hknown, ?_⟩
    by_cases h1 : s.count = 1
    · -- the last reference
      have hz : ctDec s.count = 0 := by rw [hdec]; omega
      right; left
      refine ⟨hf, hz, i, { t with refs := t.refs - 1, acq := t.acq ++ s.msg, pc := if CtBranch.standard.result s.count (ctDec s.count) = 1 then .fence else .idle }, ?_, ?_, ?_⟩
      · obtain ⟨hlt, _⟩ := List.getElem?_eq_some_iff.1 ht
        exact List.getElem?_set_self hlt
      · intro j u hj hu
        simp only at hu
        rw [List.getElem?_set_ne (Ne.symm hj)] at hu
        exact hid u (mem_of_get hu)
      · left
        refine ⟨by simp [CtBranch.result, h1], fun e he => ?_⟩
        rcases hknown e he with h | ⟨x, hx, hx1, _⟩
        · rcases List.mem_append.1 h with h | h
          · exact Or.inr (List.mem_append_right _ h)
          · exact Or.inl h
        · have := refs_le_held hx
          rw [← hcount] at this
          omega
    · left
      refine ⟨hf, by simp only; rw [hdec]; omega, ?_⟩
      intro x hx
      rcases mem_set_cases hx with h | rfl
      · exact hid x h
      · simp [CtBranch.result, h1]
  | fence i =>
    obtain ⟨t, ht, hpc⟩ := hop
    refine ⟨{ s with threads := s.threads.set i { t with view := t.view ++ t.acq, pc := .call } }, by simp [ctStep, ht], ?_⟩
    have hh := heldRefs_set (u := { t with view := t.view ++ t.acq, pc := .call }) ht
    refine ⟨?_, ?_, ?_⟩
    · have := hi.count; simp only at hh ⊢; omega
    · intro e he
      rcases hi.known e he with h | h
      · exact Or.inl h
      · exact Or.inr (known_set (u := { t with view := t.view ++ t.acq, pc := .call }) ht (fun h => h) (fun e h => List.mem_append_left _ h) h)
    · rcases hi.life with ⟨_, _, h⟩ | ⟨hf, hc, k, u, hk, hoth, hlast⟩ | ⟨_, _, h⟩
      · have := h t (mem_of_get ht); rw [hpc] at this; cases this
      · have hki : i = k := by
          apply Classical.byContradiction
          intro hne
          have := hoth i t hne ht
          rw [hpc] at this; cases this
        subst hki
        rw [ht] at hk; injection hk with hk; subst hk
        right; left
        refine ⟨hf, hc, i, { t with view := t.view ++ t.acq, pc := .call }, ?_, ?_, Or.inr ⟨rfl, fun e he => ?_⟩⟩
        · obtain ⟨hlt, _⟩ := List.getElem?_eq_some_iff.1 ht
          exact List.getElem?_set_self hlt
        · intro j u hj hu
          simp only at hu
          rw [List.getElem?_set_ne (Ne.symm hj)] at hu
          exact hoth j u hj hu
        · rcases hlast with ⟨_, h⟩ | ⟨h, _⟩
          · exact List.mem_append.2 (h e he)
          · rw [hpc] at h; cases h
      · have := h t (mem_of_get ht); rw [hpc] at this; cases this
  | call i =>
    obtain ⟨t, ht, hpc⟩ := hop
    rcases hi.life with ⟨_, _, h⟩ | ⟨hf, hc, k, u, hk, hoth, hlast⟩ | ⟨_, _, h⟩
    · have := h t (mem_of_get ht); rw [hpc] at this; cases this
    · have hki : i = k := by
        apply Classical.byContradiction
        intro hne
        have := hoth i t hne ht
        rw [hpc] at this; cases this
      subst hki
      rw [ht] at hk; injection hk with hk; subst hk
      have hall : ∀ e < s.events, e ∈ t.view := by
        rcases hlast with ⟨h, _⟩ | ⟨_, h⟩
        · rw [hpc] at h; cases h
        · exact h
      refine ⟨{ s with freed := s.freed + 1, threads := s.threads.set i { t with pc := .idle } }, ?_, ?_⟩
      · simp only [ctStep, ht]
        rw [if_neg]
        rintro (h | h)
        · exact h hf
        · exact h hall
      · have hh := heldRefs_set (u := { t with pc := .idle }) ht
        refine ⟨?_, ?_, Or.inr (Or.inr ⟨by simp [hf], hc, ?_⟩)⟩
        · have := hi.count; simp only at hh ⊢; omega
        · intro e he
          rcases hi.known e he with h | h
          · exact Or.inl h
          · exact Or.inr (known_set (u := { t with pc := .idle }) ht (fun h => h) (fun e h => h) h)
        · intro x hx
          obtain ⟨k, hk⟩ := List.mem_iff_getElem?.1 hx
          by_cases hki : k = i
          · subst hki
            obtain ⟨hlt, _⟩ := List.getElem?_eq_some_iff.1 ht
            simp only at hk
            rw [List.getElem?_set_self hlt] at hk
            injection hk with hk; subst hk; rfl
          · simp only at hk
            rw [List.getElem?_set_ne (Ne.symm hki)] at hk
            exact hoth k x hki hk
    · have := h t (mem_of_get ht); rw [hpc] at this; cases this
  | hand i j =>
    obtain ⟨t, u, ht, htp, hr, hu, hup⟩ := hop
    obtain ⟨hf, hc, hid⟩ := hi.alive ht hr
    by_cases hij : i = j
    · exact ⟨s, by simp [ctStep, ht, hu, hij], hi⟩
    · have hu' : (s.threads.set i { t with refs := t.refs - 1 })[j]? = some u := by
        rw [List.getElem?_set_ne hij]; exact hu
      refine ⟨{ s with threads := (s.threads.set i { t with refs := t.refs - 1 }).set j { u with refs := u.refs + 1, view := u.view ++ t.view } },
        by simp [ctStep, ht, hu, hij], ?_⟩
      have hh := heldRefs_set (u := { t with refs := t.refs - 1 }) ht
      have hh' := heldRefs_set (u := { u with refs := u.refs + 1, view := u.view ++ t.view }) hu'
      refine ⟨?_, ?_, Or.inl ⟨hf, hc, ?_⟩⟩
      · have := hi.count; simp only at hh hh' ⊢; omega
      · intro e he
        rcases hi.known e he with h | ⟨x, hx, h1, h2⟩
        · exact Or.inl h
        · right
          obtain ⟨k, hk⟩ := List.mem_iff_getElem?.1 hx
          by_cases hki : k = i
          · subst hki
            rw [ht] at hk; injection hk with hk; subst hk
            exact ⟨_, mem_set_new hu', Nat.succ_pos _, List.mem_append_right _ h2⟩
          · exact known_set (u := { u with refs := u.refs + 1, view := u.view ++ t.view }) hu' (fun _ => Nat.succ_pos _) (fun e h => List.mem_append_left _ h)
              ⟨x, List.mem_of_getElem? (i := k) (by rw [List.getElem?_set_ne (Ne.symm hki)]; exact hk), h1, h2⟩
      · intro x hx
        rcases mem_set_cases hx with h | rfl
        · rcases mem_set_cases h with h | rfl
          · exact hid x h
          · exact htp
        · exact hup

theorem CtReach.inv {n : Nat} {s : CtState} (h : CtReach .standard n s) : CtInv s := by
  induction h with
  | init =>
    refine ⟨?_, ?_, Or.inl ⟨rfl, Nat.one_pos, ?_⟩⟩
    · have : heldRefs (List.replicate n ⟨[], [], 0, .idle⟩) = 0 := held_zero fun t ht => by rw [List.eq_of_mem_replicate ht]
      simp only [heldRefs] at this
      simp only [ctInit, heldRefs, List.map_cons, List.sum_cons, this]
    · intro e he; exact absurd he (Nat.not_lt_zero _)
    · intro t ht
      rcases List.mem_cons.1 ht with rfl | ht
      · rfl
      · rw [List.eq_of_mem_replicate ht]
  | step s s' op h hop hs ih =>
    obtain ⟨s'', e, hi⟩ := ih.step hop
    rw [e] at hs
    injection hs with hs
    exact hs ▸ hi

/-- C112: with C11 or C++11 atomics, in every schedule, no thread touches a released resource, `release` is not called twice, and
    every access of every thread happens before it is called (each of which would be undefined). -/
theorem abi_threads_safe {n : Nat} {s : CtState} {op : CtOp} (h : CtReach .standard n s) (hop : ctMay s op) :
    ∃ s', ctStep .standard s op = .ok s' :=
  let ⟨s', e, _⟩ := h.inv.step hop
  ⟨s', e⟩

/-- C112: the count is the number of references held by all threads. -/
theorem abi_threads_count {n : Nat} {s : CtState} (h : CtReach .standard n s) : s.count = (s.threads.map fun t => t.refs).sum := h.inv.count

/-- C112: `release` is called at most once, and only when no thread holds a reference. -/
theorem abi_threads_released_once {n : Nat} {s : CtState} (h : CtReach .standard n s) :
    s.freed ≤ 1 ∧ (0 < s.freed → ∀ t ∈ s.threads, t.refs = 0) := by
  have hi := h.inv
  rcases hi.life with ⟨hf, _, _⟩ | ⟨hf, _, _⟩ | ⟨hf, hc, _⟩
  · exact ⟨by omega, fun h => by omega⟩
  · exact ⟨by omega, fun h => by omega⟩
  · refine ⟨by omega, fun _ t ht => ?_⟩
    have := refs_le_held ht
    have := hi.count
    omega

/-- C112: when all references are gone `release` has been called, or a thread is on its way to calling it. -/
theorem abi_threads_no_leak {n : Nat} {s : CtState} (h : CtReach .standard n s) (hz : ∀ t ∈ s.threads, t.refs = 0) :
    s.freed = 1 ∨ ∃ i, ctMay s (.fence i) ∨ ctMay s (.call i) := by
  have hi := h.inv
  have hc := hi.count
  rw [held_zero hz] at hc
  rcases hi.life with ⟨_, h, _⟩ | ⟨_, _, i, t, ht, _, hl⟩ | ⟨hf, _, _⟩
  · omega
  · right
    refine ⟨i, ?_⟩
    rcases hl with ⟨h, _⟩ | ⟨h, _⟩
    · exact Or.inl ⟨t, ht, h⟩
    · exact Or.inr ⟨t, ht, h⟩
  · exact Or.inl hf

/-- C112: from there on it takes two steps. -/
theorem abi_threads_finish {n : Nat} {s s' : CtState} {i : Nat} (h : CtReach .standard n s) (hf : ctMay s (.fence i))
    (hs : ctStep .standard s (.fence i) = .ok s') : ctMay s' (.call i) := by
  obtain ⟨t, ht, _⟩ := hf
  simp only [ctStep, ht] at hs
  injection hs with hs
  subst hs
  obtain ⟨hlt, _⟩ := List.getElem?_eq_some_iff.1 ht
  exact ⟨_, List.getElem?_set_self hlt, rfl⟩

/-- what `release` sees: every access has happened before -/
theorem abi_threads_happens_before {n : Nat} {s s' : CtState} {i : Nat} (h : CtReach .standard n s) (hop : ctMay s (.call i))
    (hs : ctStep .standard s (.call i) = .ok s') : ∃ t, s.threads[i]? = some t ∧ ∀ e < s.events, e ∈ t.view := by
  obtain ⟨t, ht, _⟩ := hop
  refine ⟨t, ht, ?_⟩
  simp only [ctStep, ht] at hs
  split at hs
  · cases hs
  · rename_i hn
    exact Decidable.not_not.1 fun h => hn (Or.inr h)

/-- C112 violated: where the operations return the new value (gcc before C11/C++11; MSVC in C, or in C++ without
    /Zc:__cplusplus), dropping the only reference releases nothing. -/
theorem abi_fallback_leak_violated (n : Nat) : ∃ s, CtReach .fallback n s ∧ (∀ t ∈ s.threads, t.refs = 0) ∧ s.freed = 0 ∧
    ∀ op, ¬ ctMay s op := by
  have hs : ctStep .fallback (ctInit n) (.decref 0) = .ok ⟨0, [], 0, ⟨[], [], 0, .idle⟩ :: List.replicate n ⟨[], [], 0, .idle⟩, 0⟩ := by
    simp [ctStep, ctInit, ctDec, CtBranch.result]
  have hz : ∀ (i : Nat) (t : CtThread), (CtThread.mk [] [] 0 .idle :: List.replicate n ⟨[], [], 0, .idle⟩)[i]? = some t → t.refs = 0 ∧ t.pc = .idle := by
    intro i t ht
    have := List.mem_of_getElem? ht
    rcases List.mem_cons.1 this with rfl | h
    · exact ⟨rfl, rfl⟩
    · rw [List.eq_of_mem_replicate h]; exact ⟨rfl, rfl⟩
  refine ⟨_, .step _ _ (.decref 0) .init ⟨_, rfl, rfl, Nat.one_pos⟩ hs, ?_, rfl, ?_⟩
  · intro t ht
    obtain ⟨k, hk⟩ := List.mem_iff_getElem?.1 ht
    exact (hz k t hk).1
  · intro op hop
    cases op with
    | use i => obtain ⟨t, ht, _, h⟩ := hop; rw [(hz i t ht).1] at h; exact absurd h (Nat.lt_irrefl _)
    | incref i => obtain ⟨t, ht, _, h, _⟩ := hop; rw [(hz i t ht).1] at h; exact absurd h (Nat.lt_irrefl _)
    | decref i => obtain ⟨t, ht, _, h⟩ := hop; rw [(hz i t ht).1] at h; exact absurd h (Nat.lt_irrefl _)
    | fence i => obtain ⟨t, ht, h⟩ := hop; rw [(hz i t ht).2] at h; cases h
    | call i => obtain ⟨t, ht, h⟩ := hop; rw [(hz i t ht).2] at h; cases h
    | hand i j => obtain ⟨t, u, ht, _, h, _⟩ := hop; rw [(hz i t ht).1] at h; exact absurd h (Nat.lt_irrefl _)

/-- C112 violated: ... and dropping one of two references releases the resource, which the other still uses. -/
theorem abi_fallback_use_after_release_violated (n : Nat) : ∃ s, CtReach .fallback n s ∧ ctMay s (.use 0) ∧ ctStep .fallback s (.use 0) = .ub := by
  let rest : List CtThread := List.replicate n ⟨[], [], 0, .idle⟩
  have r1 : CtReach .fallback n ⟨2, [], 0, ⟨[], [], 2, .idle⟩ :: rest, 0⟩ :=
    .step _ _ (.incref 0) .init ⟨_, rfl, rfl, Nat.one_pos, by simp [ctInit]⟩ (by simp [ctStep, ctInit, rest])
  have r2 : CtReach .fallback n ⟨1, [], 0, ⟨[], [], 1, .fence⟩ :: rest, 0⟩ :=
    .step _ _ (.decref 0) r1 ⟨_, rfl, rfl, Nat.two_pos⟩ (by simp [ctStep, ctDec, CtBranch.result])
  have r3 : CtReach .fallback n ⟨1, [], 0, ⟨[], [], 1, .call⟩ :: rest, 0⟩ :=
    .step _ _ (.fence 0) r2 ⟨_, rfl, rfl⟩ (by simp [ctStep])
  have r4 : CtReach .fallback n ⟨1, [], 0, ⟨[], [], 1, .idle⟩ :: rest, 1⟩ :=
    .step _ _ (.call 0) r3 ⟨_, rfl, rfl⟩ (by simp [ctStep])
  exact ⟨_, r4, ⟨_, rfl, rfl, Nat.one_pos⟩, by simp [ctStep]⟩

/-- two threads: the first uses the resource, hands a reference to the second, both drop theirs; the second releases -/
theorem abi_threads_case : ∃ s, CtReach .standard 1 s ∧ s.freed = 1 ∧ s.events = 2 := by
  have r1 : CtReach .standard 1 ⟨1, [], 1, [⟨[0], [], 1, .idle⟩, ⟨[], [], 0, .idle⟩], 0⟩ :=
    .step _ _ (.use 0) .init ⟨_, rfl, rfl, Nat.one_pos⟩ (by simp [ctStep, ctInit])
  have r2 : CtReach .standard 1 ⟨2, [], 1, [⟨[0], [], 2, .idle⟩, ⟨[], [], 0, .idle⟩], 0⟩ :=
    .step _ _ (.incref 0) r1 ⟨_, rfl, rfl, Nat.one_pos, by decide⟩ (by simp [ctStep])
  have r3 : CtReach .standard 1 ⟨2, [], 1, [⟨[0], [], 1, .idle⟩, ⟨[0], [], 1, .idle⟩], 0⟩ :=
    .step _ _ (.hand 0 1) r2 ⟨_, _, rfl, rfl, Nat.two_pos, rfl, rfl⟩ (by simp [ctStep])
  have r4 : CtReach .standard 1 ⟨2, [], 2, [⟨[1, 0], [], 1, .idle⟩, ⟨[0], [], 1, .idle⟩], 0⟩ :=
    .step _ _ (.use 0) r3 ⟨_, rfl, rfl, Nat.one_pos⟩ (by simp [ctStep])
  have r5 : CtReach .standard 1 ⟨1, [1, 0], 2, [⟨[1, 0], [], 0, .idle⟩, ⟨[0], [], 1, .idle⟩], 0⟩ :=
    .step _ _ (.decref 0) r4 ⟨_, rfl, rfl, Nat.one_pos⟩ (by simp [ctStep, ctDec, CtBranch.result])
  have r6 : CtReach .standard 1 ⟨0, [1, 0, 0], 2, [⟨[1, 0], [], 0, .idle⟩, ⟨[0], [1, 0], 0, .fence⟩], 0⟩ :=
    .step _ _ (.decref 1) r5 ⟨_, rfl, rfl, Nat.one_pos⟩ (by simp [ctStep, ctDec, CtBranch.result])
  have r7 : CtReach .standard 1 ⟨0, [1, 0, 0], 2, [⟨[1, 0], [], 0, .idle⟩, ⟨[0, 1, 0], [1, 0], 0, .call⟩], 0⟩ :=
    .step _ _ (.fence 1) r6 ⟨_, rfl, rfl⟩ (by simp [ctStep])
  have r8 : CtReach .standard 1 ⟨0, [1, 0, 0], 2, [⟨[1, 0], [], 0, .idle⟩, ⟨[0, 1, 0], [1, 0], 0, .idle⟩], 1⟩ :=
    .step _ _ (.call 1) r7 ⟨_, rfl, rfl⟩ (by
      simp only [ctStep]
      decide)
  exact ⟨_, r8, rfl, rfl⟩

end Dynd
