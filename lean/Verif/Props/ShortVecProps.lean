import Verif.Model.ShortVec
import Verif.Props.RecordProps
/-
Short vectors behave like vectors under any history (C93).
-/
namespace Dynd
section
variable {T : Type}

/-! ### Specification -/

/-- The vectors of a program: `none` = destroyed; an element is `none` while it has not been given a value. -/
abbrev AVecs (T : Type) := List (Option (List (Option T)))

/-- What the operations do to vectors (`none` = the program may not do this): a vector constructed or re-initialised with a size
    has that many elements without value; a vector moved from is empty; a vector is not re-initialised from itself and not
    swapped with itself. -/
def vecStep (a : AVecs T) : SvOp T → Option (AVecs T)
  | .default => some (a ++ [some []])
  | .create n => some (a ++ [some (List.replicate n none)])
  | .createFrom n src =>
    match a[src]? with
    | some (some xs) => if n ≤ xs.length then some (a ++ [some (xs.take n)]) else none
    | _ => none
  | .createData l => some (a ++ [some (l.map some)])
  | .moveNew src =>
    match a[src]? with
    | some (some xs) => some (a.set src (some []) ++ [some xs])
    | _ => none
  | .init o n =>
    match a[o]? with
    | some (some _) => some (a.set o (some (List.replicate n none)))
    | _ => none
  | .initData o l =>
    match a[o]? with
    | some (some _) => some (a.set o (some (l.map some)))
    | _ => none
  | .initFrom o n src =>
    match a[o]?, a[src]? with
    | some (some _), some (some xs) => if o ≠ src ∧ n ≤ xs.length then some (a.set o (some (xs.take n))) else none
    | _, _ => none
  | .moveAssign o src =>
    match a[o]?, a[src]? with
    | some (some _), some (some xs) => if o = src then some a else some ((a.set src (some [])).set o (some xs))
    | _, _ => none
  | .swap o w =>
    match a[o]?, a[w]? with
    | some (some xs), some (some ys) => if o = w then none else some ((a.set o (some ys)).set w (some xs))
    | _, _ => none
  | .write o i x =>
    match a[o]? with
    | some (some xs) => if i < xs.length then some (a.set o (some (xs.set i (some x)))) else none
    | _ => none
  | .destroy o =>
    match a[o]? with
    | some (some _) => some (a.set o none)
    | _ => none

/-- A history of vectors. -/
def vecRun : List (SvOp T) → AVecs T → Option (AVecs T)
  | [], a => some a
  | op :: ops, a =>
    match vecStep a op with
    | none => none
    | some a' => vecRun ops a'

/-! ### Invariant -/

/-- Every element with a value is stored. -/
def Agree (xs l : List (Option T)) : Prop := ∀ (i : Nat) (x : T), xs[i]? = some (some x) → l[i]? = some (some x)

theorem Agree.nil (l : List (Option T)) : Agree [] l := fun i x h => by simp at h

theorem Agree.replicate (n : Nat) (l : List (Option T)) : Agree (List.replicate n none) l := fun i x h => by
  rw [List.getElem?_replicate] at h
  split at h <;> simp at h

theorem Agree.take {xs l : List (Option T)} (h : Agree xs l) (n : Nat) : Agree (xs.take n) (l.take n) := fun i x hx => by
  rw [List.getElem?_take] at hx ⊢
  split at hx
  · rename_i hi; rw [if_pos hi]; exact h i x hx
  · cases hx

theorem Agree.append {xs l : List (Option T)} (h : Agree xs l) (r : List (Option T)) : Agree xs (l ++ r) := fun i x hx => by
  have := h i x hx
  rw [List.getElem?_append_left (lt_of_some this)]
  exact this

/-- The storage of object `o` holds `xs`. -/
def SvOk (N : Nat) (heap : List (Option (List (Option T)))) (o : Nat) (x : SvObj T) (xs : List (Option T)) : Prop :=
  x.shortdata.length = N ∧
    ((x.data = .short o ∧ xs.length ≤ N ∧ Agree xs x.shortdata) ∨
      ∃ b l, x.data = .heap b ∧ heap[b]? = some (some l) ∧ xs.length ≤ l.length ∧ Agree xs l)

/-- The objects hold the vectors, and the heap arrays are owned by one object each, except those in `L`. -/
structure SvInv (N : Nat) (L : List Nat) (s : SvState T) (a : AVecs T) : Prop where
  len : s.objs.length = a.length
  obj : ∀ (o : Nat) (v : Option (List (Option T))), a[o]? = some v →
    (v = none ∧ s.objs[o]? = some none) ∨ ∃ xs x, v = some xs ∧ s.objs[o]? = some (some x) ∧ SvOk N s.heap o x xs
  inj : ∀ (o o' : Nat) (x x' : SvObj T) (b : Nat), s.objs[o]? = some (some x) → s.objs[o']? = some (some x') →
    x.data = .heap b → x'.data = .heap b → o = o'
  own : ∀ (b : Nat) (l : List (Option T)), s.heap[b]? = some (some l) →
    b ∈ L ∨ ∃ (o : Nat) (x : SvObj T), s.objs[o]? = some (some x) ∧ x.data = .heap b
  nodup : L.Nodup
  loose : ∀ b ∈ L, (∃ l, s.heap[b]? = some (some l)) ∧ ∀ (o : Nat) (x : SvObj T), s.objs[o]? = some (some x) → x.data ≠ .heap b

theorem SvInv.get {N : Nat} {L : List Nat} {s : SvState T} {a : AVecs T} (hi : SvInv N L s a) {o : Nat}
    {xs : List (Option T)} (ho : a[o]? = some (some xs)) :
    ∃ x, s.objs[o]? = some (some x) ∧ SvOk N s.heap o x xs := by
  rcases hi.obj o _ ho with ⟨h, -⟩ | ⟨xs', x, h, hx, hok⟩
  · cases h
  · cases h; exact ⟨x, hx, hok⟩

/-- A live object corresponds to a vector. -/
theorem SvInv.vec {N : Nat} {L : List Nat} {s : SvState T} {a : AVecs T} (hi : SvInv N L s a) {o : Nat} {x : SvObj T}
    (hx : s.objs[o]? = some (some x)) : ∃ xs, a[o]? = some (some xs) ∧ SvOk N s.heap o x xs := by
  have hlt := lt_of_some hx
  rw [hi.len] at hlt
  obtain ⟨v, hv⟩ := some_of_lt hlt
  rcases hi.obj o v hv with ⟨-, h⟩ | ⟨xs, x', rfl, h, hok⟩
  · rw [hx] at h; cases h
  · rw [hx] at h; cases h; exact ⟨xs, hv, hok⟩

theorem SvOk.frame {N : Nat} {h h' : List (Option (List (Option T)))} {o : Nat} {x : SvObj T} {xs : List (Option T)}
    (hok : SvOk N h o x xs) (hf : ∀ b, x.data = .heap b → h'[b]? = h[b]?) : SvOk N h' o x xs := by
  refine ⟨hok.1, ?_⟩
  rcases hok.2 with h | ⟨b, l, hb, hl, r⟩
  · exact .inl h
  · exact .inr ⟨b, l, hb, by rw [hf b hb]; exact hl, r⟩

/-- Updating one object and the heap arrays that belong to no other object. -/
theorem SvInv.upd {N : Nat} {L L' : List Nat} {s : SvState T} {a : AVecs T} (hi : SvInv N L s a) {o : Nat} {x : SvObj T}
    (ho : s.objs[o]? = some (some x)) {x' : SvObj T} {xs' : List (Option T)} {h' : List (Option (List (Option T)))}
    (hok : SvOk N h' o x' xs')
    (hframe : ∀ (o' : Nat) (y : SvObj T) (b : Nat), o' ≠ o → s.objs[o']? = some (some y) → y.data = .heap b →
      h'[b]? = s.heap[b]? ∧ x'.data ≠ .heap b ∧ b ∉ L')
    (hown : ∀ (b : Nat) (l : List (Option T)), h'[b]? = some (some l) → b ∈ L' ∨ x'.data = .heap b ∨
      ∃ (o' : Nat) (y : SvObj T), o' ≠ o ∧ s.objs[o']? = some (some y) ∧ y.data = .heap b)
    (hnd : L'.Nodup) (hloose : ∀ b ∈ L', (∃ l, h'[b]? = some (some l)) ∧ x'.data ≠ .heap b) :
    SvInv N L' ⟨s.objs.set o (some x'), h'⟩ (a.set o (some xs')) := by
  have hlt := lt_of_some ho
  have hlta : o < a.length := by rw [← hi.len]; exact hlt
  have hget : ∀ (p : Nat) (y : SvObj T), (s.objs.set o (some x'))[p]? = some (some y) →
      (p = o ∧ y = x') ∨ (p ≠ o ∧ s.objs[p]? = some (some y)) := by
    intro p y hp
    by_cases hpo : p = o
    · subst hpo
      rw [List.getElem?_set_self hlt] at hp
      cases hp
      exact .inl ⟨rfl, rfl⟩
    · rw [List.getElem?_set_ne (fun e => hpo e.symm)] at hp
      exact .inr ⟨hpo, hp⟩
  refine ⟨by simp [hi.len], ?_, ?_, ?_, hnd, ?_⟩
  · intro p v hv
    by_cases hpo : p = o
    · subst hpo
      rw [List.getElem?_set_self hlta] at hv
      cases hv
      exact .inr ⟨xs', x', rfl, List.getElem?_set_self hlt, hok⟩
    · rw [List.getElem?_set_ne (fun e => hpo e.symm)] at hv
      simp only
      rw [List.getElem?_set_ne (fun e => hpo e.symm)]
      rcases hi.obj p v hv with h | ⟨xs, y, h1, h2, h3⟩
      · exact .inl h
      · exact .inr ⟨xs, y, h1, h2, h3.frame fun b hb => (hframe p y b hpo h2 hb).1⟩
  · intro p q y z b hy0 hz0 hyb hzb
    rcases hget p y hy0 with ⟨rfl, rfl⟩ | ⟨hp, hy⟩ <;> rcases hget q z hz0 with ⟨rfl, rfl⟩ | ⟨hq, hz⟩
    · rfl
    · exact absurd hyb (hframe q z b hq hz hzb).2.1
    · exact absurd hzb (hframe p y b hp hy hyb).2.1
    · exact hi.inj p q y z b hy hz hyb hzb
  · intro b l hb
    rcases hown b l hb with h | h | ⟨p, y, hp, hy, hyb⟩
    · exact .inl h
    · exact .inr ⟨o, x', List.getElem?_set_self hlt, h⟩
    · exact .inr ⟨p, y, by simp only; rw [List.getElem?_set_ne (fun e => hp e.symm)]; exact hy, hyb⟩
  · intro b hb
    refine ⟨(hloose b hb).1, fun p y hy => ?_⟩
    rcases hget p y hy with ⟨rfl, rfl⟩ | ⟨hp, hy⟩
    · exact (hloose b hb).2
    · exact fun hyb => (hframe p y b hp hy hyb).2.2 hb

/-- Object `o` gives up its storage. -/
theorem SvInv.detach {N : Nat} {L : List Nat} {s : SvState T} {a : AVecs T} (hi : SvInv N L s a) {o b : Nat} {x : SvObj T}
    (ho : s.objs[o]? = some (some x)) (hb : x.data = .heap b) (sd : List (Option T)) (hsd : sd.length = N) :
    SvInv N (b :: L) ⟨s.objs.set o (some ⟨.short o, sd⟩), s.heap⟩ (a.set o (some [])) := by
  obtain ⟨xs, hxs, hok⟩ := hi.vec ho
  refine hi.upd ho ⟨hsd, .inl ⟨rfl, Nat.zero_le _, .nil _⟩⟩ ?_ ?_ ?_ ?_
  · intro p y c hp hy hc
    refine ⟨rfl, by simp, fun hm => ?_⟩
    rcases List.mem_cons.1 hm with rfl | hm
    · exact hp (hi.inj p o y x c hy ho hc hb)
    · exact (hi.loose c hm).2 p y hy hc
  · intro c l hc
    rcases hi.own c l hc with h | ⟨p, y, hy, hyc⟩
    · exact .inl (List.mem_cons_of_mem _ h)
    · by_cases hp : p = o
      · subst hp
        rw [ho] at hy
        cases hy
        rw [hb] at hyc
        cases hyc
        exact .inl List.mem_cons_self
      · exact .inr (.inr ⟨p, y, hp, hy, hyc⟩)
  · exact List.nodup_cons.2 ⟨fun hm => (hi.loose b hm).2 o x ho hb, hi.nodup⟩
  · intro c hc
    refine ⟨?_, by simp⟩
    rcases List.mem_cons.1 hc with rfl | hc
    · rcases hok.2 with ⟨h, -⟩ | ⟨b', l, hb', hl, -⟩
      · rw [hb] at h; cases h
      · rw [hb] at hb'; cases hb'; exact ⟨l, hl⟩
    · exact (hi.loose c hc).1

/-- Object `o`, which uses its own storage, takes a heap array over. -/
theorem SvInv.attach {N : Nat} {L : List Nat} {s : SvState T} {a : AVecs T} {b : Nat} (hi : SvInv N (b :: L) s a) {o : Nat}
    {x : SvObj T} (ho : s.objs[o]? = some (some x)) (hx : x.data = .short o) {l xs : List (Option T)}
    (hl : s.heap[b]? = some (some l)) (hlen : xs.length ≤ l.length) (hag : Agree xs l) :
    SvInv N L ⟨s.objs.set o (some { x with data := .heap b }), s.heap⟩ (a.set o (some xs)) := by
  obtain ⟨xs0, hxs0, hok⟩ := hi.vec ho
  have hnd := List.nodup_cons.1 hi.nodup
  refine hi.upd ho ⟨hok.1, .inr ⟨b, l, rfl, hl, hlen, hag⟩⟩ ?_ ?_ hnd.2 ?_
  · intro p y c hp hy hc
    refine ⟨rfl, fun e => ?_, fun hm => (hi.loose c (List.mem_cons_of_mem _ hm)).2 p y hy hc⟩
    simp only [SvPtr.heap.injEq] at e
    subst e
    exact (hi.loose b List.mem_cons_self).2 p y hy hc
  · intro c l hc
    rcases hi.own c l hc with h | ⟨p, y, hy, hyc⟩
    · rcases List.mem_cons.1 h with rfl | h
      · exact .inr (.inl rfl)
      · exact .inl h
    · by_cases hp : p = o
      · subst hp
        rw [ho] at hy
        cases hy
        rw [hx] at hyc
        cases hyc
      · exact .inr (.inr ⟨p, y, hp, hy, hyc⟩)
  · intro c hc
    refine ⟨(hi.loose c (List.mem_cons_of_mem _ hc)).1, fun e => ?_⟩
    simp only [SvPtr.heap.injEq] at e
    subst e
    exact hnd.1 hc

/-- New contents of the storage inside object `o`, in use. -/
theorem SvInv.putShort {N : Nat} {L : List Nat} {s : SvState T} {a : AVecs T} (hi : SvInv N L s a) {o : Nat} {x : SvObj T}
    (ho : s.objs[o]? = some (some x)) (hx : x.data = .short o) {sd xs : List (Option T)} (hsd : sd.length = N)
    (hlen : xs.length ≤ N) (hag : Agree xs sd) :
    SvInv N L ⟨s.objs.set o (some ⟨.short o, sd⟩), s.heap⟩ (a.set o (some xs)) := by
  refine hi.upd ho ⟨hsd, .inl ⟨rfl, hlen, hag⟩⟩ ?_ ?_ hi.nodup ?_
  · intro p y c hp hy hc
    exact ⟨rfl, by simp, fun hm => (hi.loose c hm).2 p y hy hc⟩
  · intro c l hc
    rcases hi.own c l hc with h | ⟨p, y, hy, hyc⟩
    · exact .inl h
    · by_cases hp : p = o
      · subst hp
        rw [ho] at hy
        cases hy
        rw [hx] at hyc
        cases hyc
      · exact .inr (.inr ⟨p, y, hp, hy, hyc⟩)
  · intro c hc
    exact ⟨(hi.loose c hc).1, by simp⟩

/-- New contents of the heap array of object `o`. -/
theorem SvInv.putHeap {N : Nat} {L : List Nat} {s : SvState T} {a : AVecs T} (hi : SvInv N L s a) {o b : Nat} {x : SvObj T}
    (ho : s.objs[o]? = some (some x)) (hb : x.data = .heap b) {l xs : List (Option T)}
    (hlen : xs.length ≤ l.length) (hag : Agree xs l) :
    SvInv N L ⟨s.objs, s.heap.set b (some l)⟩ (a.set o (some xs)) := by
  obtain ⟨xs0, -, hok⟩ := hi.vec ho
  obtain ⟨l0, hl0⟩ : ∃ l0, s.heap[b]? = some (some l0) := by
    rcases hok.2 with ⟨h, -⟩ | ⟨b', l0, hb', hl, -⟩
    · rw [hb] at h; cases h
    · rw [hb] at hb'; cases hb'; exact ⟨l0, hl⟩
  have hlt := lt_of_some hl0
  have he : s.objs = s.objs.set o (some x) := by
    refine List.ext_getElem? fun p => ?_
    by_cases hp : p = o
    · subst hp; rw [List.getElem?_set_self (lt_of_some ho), ho]
    · rw [List.getElem?_set_ne (fun e => hp e.symm)]
  rw [he]
  refine hi.upd ho ⟨hok.1, .inr ⟨b, l, hb, List.getElem?_set_self hlt, hlen, hag⟩⟩ ?_ ?_ hi.nodup ?_
  · intro p y c hp hy hc
    have hcb : c ≠ b := fun e => hp (hi.inj p o y x c hy ho hc (e ▸ hb))
    exact ⟨by rw [List.getElem?_set_ne (fun e => hcb e.symm)], by rw [hb]; simp; exact fun e => hcb e.symm,
      fun hm => (hi.loose c hm).2 p y hy hc⟩
  · intro c l' hc
    by_cases hcb : c = b
    · subst hcb; exact .inr (.inl hb)
    · rw [List.getElem?_set_ne (fun e => hcb e.symm)] at hc
      rcases hi.own c l' hc with h | ⟨p, y, hy, hyc⟩
      · exact .inl h
      · by_cases hp : p = o
        · subst hp
          rw [ho] at hy
          cases hy
          exact .inr (.inl hyc)
        · exact .inr (.inr ⟨p, y, hp, hy, hyc⟩)
  · intro c hc
    have hcb : c ≠ b := fun e => (hi.loose c hc).2 o x ho (e ▸ hb)
    refine ⟨?_, by rw [hb]; simp; exact fun e => hcb e.symm⟩
    rw [List.getElem?_set_ne (fun e => hcb e.symm)]
    exact (hi.loose c hc).1

/-- `new T[n]`. -/
theorem SvInv.newBlock {N : Nat} {L : List Nat} {s : SvState T} {a : AVecs T} (hi : SvInv N L s a) (l : List (Option T)) :
    SvInv N (s.heap.length :: L) ⟨s.objs, s.heap ++ [some l]⟩ a := by
  have hlt : ∀ {o b : Nat} {x : SvObj T}, s.objs[o]? = some (some x) → x.data = .heap b → b < s.heap.length := by
    intro o b x ho hb
    obtain ⟨xs0, -, hok⟩ := hi.vec ho
    rcases hok.2 with ⟨h, -⟩ | ⟨b', l0, hb', hl, -⟩
    · rw [hb] at h; cases h
    · rw [hb] at hb'; cases hb'; exact lt_of_some hl
  have hltL : ∀ b ∈ L, b < s.heap.length := by
    intro b hb
    obtain ⟨⟨l, hl⟩, -⟩ := hi.loose b hb
    exact lt_of_some hl
  refine ⟨hi.len, ?_, hi.inj, ?_, ?_, ?_⟩
  · intro o v hv
    rcases hi.obj o v hv with h | ⟨xs, x, h1, h2, h3⟩
    · exact .inl h
    · exact .inr ⟨xs, x, h1, h2, h3.frame fun b hb => List.getElem?_append_left (hlt h2 hb)⟩
  · intro b l' hb
    by_cases h : b < s.heap.length
    · simp only at hb
      rw [List.getElem?_append_left h] at hb
      rcases hi.own b l' hb with h | h
      · exact .inl (List.mem_cons_of_mem _ h)
      · exact .inr h
    · have : b = s.heap.length := by
        have := lt_of_some hb
        simp only [List.length_append, List.length_singleton] at this
        omega
      subst this
      exact .inl List.mem_cons_self
  · exact List.nodup_cons.2 ⟨fun hm => Nat.lt_irrefl _ (hltL _ hm), hi.nodup⟩
  · intro b hb
    rcases List.mem_cons.1 hb with rfl | hb
    · refine ⟨⟨l, by simp⟩, fun o x ho hx => Nat.lt_irrefl _ (hlt ho hx)⟩
    · obtain ⟨⟨l', hl'⟩, h2⟩ := hi.loose b hb
      exact ⟨⟨l', by simp only; rw [List.getElem?_append_left (lt_of_some hl')]; exact hl'⟩, h2⟩

/-- `delete[]`. -/
theorem SvInv.freeBlock {N : Nat} {L : List Nat} {s : SvState T} {a : AVecs T} {b : Nat} (hi : SvInv N (b :: L) s a) :
    SvInv N L ⟨s.objs, s.heap.set b none⟩ a := by
  have hnd := List.nodup_cons.1 hi.nodup
  have hb := hi.loose b List.mem_cons_self
  refine ⟨hi.len, ?_, hi.inj, ?_, hnd.2, ?_⟩
  · intro o v hv
    rcases hi.obj o v hv with h | ⟨xs, x, h1, h2, h3⟩
    · exact .inl h
    · refine .inr ⟨xs, x, h1, h2, h3.frame fun c hc => ?_⟩
      have hcb : b ≠ c := fun e => hb.2 o x h2 (e ▸ hc)
      exact List.getElem?_set_ne hcb
  · intro c l hc
    simp only at hc
    have hcb : b ≠ c := by
      intro e
      subst e
      obtain ⟨l', hl'⟩ := hb.1
      rw [List.getElem?_set_self (lt_of_some hl')] at hc
      cases hc
    rw [List.getElem?_set_ne hcb] at hc
    rcases hi.own c l hc with h | h
    · rcases List.mem_cons.1 h with rfl | h
      · exact absurd rfl hcb
      · exact .inl h
    · exact .inr h
  · intro c hc
    have hcb : b ≠ c := fun e => hnd.1 (e ▸ hc)
    obtain ⟨h1, h2⟩ := hi.loose c (List.mem_cons_of_mem _ hc)
    refine ⟨?_, h2⟩
    simp only
    rw [List.getElem?_set_ne hcb]
    exact h1

/-- A new, empty vector. -/
theorem SvInv.fresh {N : Nat} {L : List Nat} {s : SvState T} {a : AVecs T} (hi : SvInv N L s a) :
    SvInv N L (svFresh N s) (a ++ [some []]) := by
  have hget : ∀ (o : Nat) (x : SvObj T), (svFresh N s).objs[o]? = some (some x) →
      s.objs[o]? = some (some x) ∨ (o = s.objs.length ∧ x = ⟨.short s.objs.length, List.replicate N none⟩) := by
    intro o x ho
    unfold svFresh at ho
    simp only at ho
    by_cases h : o < s.objs.length
    · rw [List.getElem?_append_left h] at ho; exact .inl ho
    · have : o = s.objs.length := by
        have := lt_of_some ho
        simp only [List.length_append, List.length_singleton] at this
        omega
      subst this
      simp only [List.getElem?_concat_length, Option.some.injEq] at ho
      exact .inr ⟨rfl, ho.symm⟩
  have hold : ∀ (o : Nat) (x : Option (SvObj T)), s.objs[o]? = some x → (svFresh N s).objs[o]? = some x := by
    intro o x ho
    unfold svFresh
    simp only
    rw [List.getElem?_append_left (lt_of_some ho)]
    exact ho
  refine ⟨by simp [svFresh, hi.len], ?_, ?_, ?_, hi.nodup, ?_⟩
  · intro o v hv
    by_cases h : o < a.length
    · rw [List.getElem?_append_left h] at hv
      rcases hi.obj o v hv with ⟨h1, h2⟩ | ⟨xs, x, h1, h2, h3⟩
      · exact .inl ⟨h1, hold _ _ h2⟩
      · exact .inr ⟨xs, x, h1, hold _ _ h2, h3⟩
    · have : o = a.length := by
        have := lt_of_some hv
        simp only [List.length_append, List.length_singleton] at this
        omega
      subst this
      simp only [List.getElem?_concat_length, Option.some.injEq] at hv
      subst hv
      refine .inr ⟨[], ⟨.short s.objs.length, List.replicate N none⟩, rfl, ?_, by simp, .inl ⟨by rw [hi.len], Nat.zero_le _, .nil _⟩⟩
      unfold svFresh
      simp only
      rw [← hi.len, List.getElem?_concat_length]
  · intro o o' x x' b ho ho' hx hx'
    rcases hget o x ho with ho | ⟨rfl, rfl⟩
    · rcases hget o' x' ho' with ho' | ⟨rfl, rfl⟩
      · exact hi.inj o o' x x' b ho ho' hx hx'
      · cases hx'
    · cases hx
  · intro b l hb
    rcases hi.own b l hb with h | ⟨o, x, ho, hx⟩
    · exact .inl h
    · exact .inr ⟨o, x, hold _ _ ho, hx⟩
  · intro b hb
    refine ⟨(hi.loose b hb).1, fun o x ho hx => ?_⟩
    rcases hget o x ho with ho | ⟨rfl, rfl⟩
    · exact (hi.loose b hb).2 o x ho hx
    · cases hx

/-! ### Each operation -/

theorem svObj_eq {s : SvState T} {o : Nat} {x : SvObj T} (h : s.objs[o]? = some (some x)) : svObj s o = .ok x := by
  unfold svObj; rw [h]

theorem svSetData_eq {s : SvState T} {o : Nat} {x : SvObj T} {p : SvPtr} (h : s.objs[o]? = some (some x)) :
    svSetData s o p = .ok ⟨s.objs.set o (some { x with data := p }), s.heap⟩ := by
  unfold svSetData; rw [svObj_eq h]; rfl

theorem set4 {α : Type} {l : List α} {o w : Nat} (h : o ≠ w) (a b c d : α) :
    (((l.set o a).set w b).set o c).set w d = (l.set o c).set w d := by
  rw [List.set_comm b c (fun e => h e.symm), List.set_set, List.set_set]

/-- `if (m_data != m_shortdata) delete[] m_data` followed by `m_data = m_shortdata`. -/
theorem svFree_ok {N : Nat} {s : SvState T} {a : AVecs T} (hi : SvInv N [] s a) {o : Nat} {x : SvObj T}
    (ho : s.objs[o]? = some (some x)) :
    ∃ h, svFree s o = .ok ⟨s.objs, h⟩ ∧
      SvInv N [] ⟨s.objs.set o (some { x with data := .short o }), h⟩ (a.set o (some [])) := by
  obtain ⟨xs, hxs, hok⟩ := hi.vec ho
  unfold svFree
  rw [svObj_eq ho]
  simp only [Res.bind_ok]
  rcases hok.2 with ⟨hd, -⟩ | ⟨b, l, hd, hl, -⟩
  · rw [if_neg (by rw [hd]; simp)]
    exact ⟨s.heap, rfl, hi.putShort ho hd hok.1 (Nat.zero_le _) (.nil _)⟩
  · rw [if_pos (by rw [hd]; simp), hd]
    refine ⟨s.heap.set b none, by simp only [svDelete, hl], ?_⟩
    exact (hi.detach ho hd x.shortdata hok.1).freeBlock

/-- `m_data = (size <= staticN) ? m_shortdata : new T[size]`. -/
theorem svAlloc_ok {N : Nat} {s : SvState T} {a : AVecs T} {o n : Nat} {x : SvObj T} (ho : s.objs[o]? = some (some x))
    (hi : SvInv N [] ⟨s.objs.set o (some { x with data := .short o }), s.heap⟩ a) :
    ∃ s', svAlloc N s o n = .ok s' ∧ SvInv N [] s' (a.set o (some (List.replicate n none))) ∧
      (∀ p, p ≠ o → s'.objs[p]? = s.objs[p]?) := by
  have hlt := lt_of_some ho
  have hx : (s.objs.set o (some { x with data := .short o }))[o]? = some (some { x with data := .short o }) :=
    List.getElem?_set_self hlt
  obtain ⟨xs, hxs, hok⟩ := hi.vec hx
  unfold svAlloc
  by_cases hn : n ≤ N
  · rw [if_pos hn, svSetData_eq ho]
    refine ⟨_, rfl, ?_, fun p hp => List.getElem?_set_ne (fun e => hp e.symm)⟩
    have := hi.putShort hx rfl hok.1 (xs := List.replicate n none) (by simpa using hn) (.replicate _ _)
    simp only [List.set_set] at this
    exact this
  · rw [if_neg hn]
    unfold svNew
    simp only
    rw [svSetData_eq (s := ⟨s.objs, s.heap ++ [some (List.replicate n none)]⟩) ho]
    refine ⟨_, rfl, ?_, fun p hp => List.getElem?_set_ne (fun e => hp e.symm)⟩
    have := (hi.newBlock (List.replicate n none)).attach hx rfl (l := List.replicate n none) (xs := List.replicate n none)
      (by simp) (Nat.le_refl _) (.replicate _ _)
    simp only [List.set_set] at this
    exact this

/-- Filling the start of a vector's storage. -/
theorem svPut_ok {N : Nat} {s : SvState T} {a : AVecs T} (hi : SvInv N [] s a) {o : Nat} {x : SvObj T}
    (ho : s.objs[o]? = some (some x)) {xs l ys : List (Option T)} (hxs : a[o]? = some (some xs)) (hl : l.length ≤ xs.length)
    (hys : ys.length ≤ l.length) (hag : Agree ys l) :
    ∃ s', svPut s x.data l = .ok s' ∧ SvInv N [] s' (a.set o (some ys)) := by
  obtain ⟨x', ho', hok⟩ := hi.get hxs
  rw [ho] at ho'
  cases ho'
  unfold svPut
  rcases hok.2 with ⟨hd, hlen, -⟩ | ⟨b, d, hd, hdl, hlen, -⟩
  · rw [hd]
    unfold svElems
    simp only [svObj_eq ho, Res.bind_ok]
    rw [if_pos (by rw [hok.1]; omega)]
    unfold svStore
    simp only [svObj_eq ho, Res.bind_ok]
    refine ⟨_, rfl, ?_⟩
    have := hi.putShort ho hd (sd := l ++ x.shortdata.drop l.length) (xs := ys)
      (by rw [List.length_append, List.length_drop, hok.1]; omega) (by omega) (hag.append _)
    rw [← hd] at this
    exact this
  · rw [hd]
    unfold svElems
    simp only [hdl, Res.bind_ok]
    rw [if_pos (by omega)]
    unfold svStore
    simp only [hdl]
    refine ⟨_, rfl, ?_⟩
    exact hi.putHeap ho hd (by rw [List.length_append, List.length_drop]; omega) (hag.append _)

/-- The elements of a vector's storage. -/
theorem svElems_ok {N : Nat} {s : SvState T} {a : AVecs T} (hi : SvInv N [] s a) {o : Nat} {xs : List (Option T)}
    (hxs : a[o]? = some (some xs)) :
    ∃ x l, s.objs[o]? = some (some x) ∧ svElems s x.data = .ok l ∧ xs.length ≤ l.length ∧ Agree xs l := by
  obtain ⟨x, ho, hok⟩ := hi.get hxs
  rcases hok.2 with ⟨hd, hlen, hag⟩ | ⟨b, d, hd, hdl, hlen, hag⟩
  · exact ⟨x, x.shortdata, ho, by rw [hd]; unfold svElems; simp only [svObj_eq ho, Res.bind_ok], by rw [hok.1]; exact hlen, hag⟩
  · exact ⟨x, d, ho, by rw [hd]; unfold svElems; simp only [hdl], hlen, hag⟩

theorem SvInv.ptr_ne {N : Nat} {s : SvState T} {a : AVecs T} (hi : SvInv N [] s a) {o p : Nat} {x y : SvObj T}
    (ho : s.objs[o]? = some (some x)) (hp : s.objs[p]? = some (some y)) (hne : o ≠ p) : x.data ≠ y.data := by
  obtain ⟨xs, -, hok⟩ := hi.vec ho
  obtain ⟨ys, -, hok'⟩ := hi.vec hp
  intro e
  rcases hok.2 with ⟨hd, -⟩ | ⟨b, d, hd, -⟩
  · rcases hok'.2 with ⟨hd', -⟩ | ⟨b', d', hd', -⟩
    · rw [hd, hd'] at e; cases e; exact hne rfl
    · rw [hd, hd'] at e; cases e
  · exact hne (hi.inj o p x y b ho hp hd (e ▸ hd))

/-- Copying from one vector to the start of another. -/
theorem svCopy_ok {N : Nat} {s : SvState T} {a : AVecs T} (hi : SvInv N [] s a) {o p n : Nat} {x y : SvObj T}
    (ho : s.objs[o]? = some (some x)) (hp : s.objs[p]? = some (some y)) (hne : o ≠ p) {xs ys : List (Option T)}
    (hxs : a[o]? = some (some xs)) (hys : a[p]? = some (some ys)) (hn : n ≤ xs.length) (hn' : n ≤ ys.length) :
    ∃ s', svCopy s x.data y.data n = .ok s' ∧ SvInv N [] s' (a.set o (some (ys.take n))) := by
  obtain ⟨y', l, hp', hl, hlen, hag⟩ := svElems_ok hi hys
  rw [hp] at hp'
  cases hp'
  unfold svCopy
  rw [hl]
  simp only [Res.bind_ok]
  rw [if_pos ⟨by omega, .inr (hi.ptr_ne ho hp hne)⟩]
  exact svPut_ok hi ho hxs (by rw [List.length_take]; omega) (by simp only [List.length_take]; omega) (hag.take n)

theorem svInit_ok {N : Nat} {s : SvState T} {a : AVecs T} (hi : SvInv N [] s a) {o n : Nat} {xs : List (Option T)}
    (hxs : a[o]? = some (some xs)) :
    ∃ s', svInit N s o n = .ok s' ∧ SvInv N [] s' (a.set o (some (List.replicate n none))) ∧
      (∀ p, p ≠ o → s'.objs[p]? = s.objs[p]?) := by
  obtain ⟨x, ho, -⟩ := hi.get hxs
  obtain ⟨h, e, i1⟩ := svFree_ok hi ho
  obtain ⟨s', e2, i2, hf⟩ := svAlloc_ok (n := n) (s := ⟨s.objs, h⟩) ho i1
  rw [List.set_set] at i2
  exact ⟨s', by unfold svInit; rw [e]; exact e2, i2, hf⟩

theorem set_get_self {α : Type} {l : List α} {o : Nat} {x : α} (h : l[o]? = some x) : l.set o x = l := by
  refine List.ext_getElem? fun p => ?_
  by_cases hp : p = o
  · subst hp; rw [List.getElem?_set_self (lt_of_some h), h]
  · rw [List.getElem?_set_ne (fun e => hp e.symm)]

/-- Move construction or assignment into an object that uses its own storage (or whose heap array has just been freed). -/
theorem svTake_ok {N : Nat} {s : SvState T} {a : AVecs T} {o src : Nat} {x : SvObj T} (ho : s.objs[o]? = some (some x))
    (hi : SvInv N [] ⟨s.objs.set o (some { x with data := .short o }), s.heap⟩ a) (hne : o ≠ src) {ys : List (Option T)}
    (hys : a[src]? = some (some ys)) :
    ∃ s', svTake N s o src = .ok s' ∧ SvInv N [] s' ((a.set src (some [])).set o (some ys)) := by
  have hlt := lt_of_some ho
  have hx : (s.objs.set o (some { x with data := .short o }))[o]? = some (some { x with data := .short o }) :=
    List.getElem?_set_self hlt
  obtain ⟨xs, hxs, hokx⟩ := hi.vec hx
  obtain ⟨y, hy', hok⟩ := hi.get hys
  have hy : s.objs[src]? = some (some y) := by rwa [List.getElem?_set_ne hne] at hy'
  unfold svTake
  rw [svObj_eq hy]
  simp only [Res.bind_ok]
  rcases hok.2 with ⟨hd, hlen, hag⟩ | ⟨b, l, hd, hl, hlen, hag⟩
  · rw [if_pos hd]
    unfold svCopy svElems
    simp only [svObj_eq hy, Res.bind_ok]
    rw [if_pos ⟨Nat.le_of_eq hok.1.symm, .inr (by simp; exact hne)⟩]
    unfold svPut svElems
    simp only [svObj_eq ho, Res.bind_ok]
    have ht : y.shortdata.take N = y.shortdata := List.take_of_length_le (Nat.le_of_eq hok.1)
    have hsx : x.shortdata.length = N := hokx.1
    rw [ht, if_pos (by rw [hok.1, hsx])]
    unfold svStore
    simp only [svObj_eq ho, Res.bind_ok]
    rw [List.drop_of_length_le (by rw [hok.1, hsx]), List.append_nil]
    rw [svSetData_eq (s := ⟨s.objs.set o (some { x with shortdata := y.shortdata }), s.heap⟩) (List.getElem?_set_self hlt)]
    refine ⟨_, rfl, ?_⟩
    have i1 := hi.putShort (xs := []) hy' hd hok.1 (Nat.zero_le _) (.nil _)
    have e1 : (s.objs.set o (some { x with data := .short o })).set src (some ⟨.short src, y.shortdata⟩) =
        s.objs.set o (some { x with data := .short o }) := by
      have : (⟨.short src, y.shortdata⟩ : SvObj T) = y := by rw [← hd]
      rw [this]
      exact set_get_self hy'
    rw [e1] at i1
    have i2 := i1.putShort (xs := ys) hx rfl hok.1 hlen hag
    simp only [List.set_set] at i2 ⊢
    exact i2
  · rw [if_neg (by rw [hd]; simp), svSetData_eq ho]
    simp only [Res.bind_ok]
    rw [svSetData_eq (s := ⟨s.objs.set o (some { x with data := y.data }), s.heap⟩) (x := y)
      (by simp only; rw [List.getElem?_set_ne hne]; exact hy)]
    refine ⟨_, rfl, ?_⟩
    have i1 := hi.detach hy' hd y.shortdata hok.1
    have i2 := i1.attach (o := o) (x := { x with data := .short o })
      (by simp only; rw [List.getElem?_set_ne (fun e => hne e.symm)]; exact hx) rfl hl hlen hag
    simp only at i2 ⊢
    rw [List.set_comm _ _ (fun e => hne e.symm), List.set_set] at i2
    rw [hd]
    exact i2

theorem svSwap_ok {N : Nat} {s : SvState T} {a : AVecs T} (hi : SvInv N [] s a) {o w : Nat} (hne : o ≠ w)
    {xs ys : List (Option T)} (hxs : a[o]? = some (some xs)) (hys : a[w]? = some (some ys)) :
    ∃ s', svSwap N s o w = .ok s' ∧ SvInv N [] s' ((a.set o (some ys)).set w (some xs)) := by
  obtain ⟨x, hx, hokx⟩ := hi.get hxs
  obtain ⟨y, hy, hoky⟩ := hi.get hys
  obtain ⟨xd, xsd⟩ := x
  obtain ⟨yd, ysd⟩ := y
  have hlo := lt_of_some hx
  have hlw := lt_of_some hy
  have hne' : w ≠ o := fun e => hne e.symm
  have hxl : xsd.length = N := hokx.1
  have hyl : ysd.length = N := hoky.1
  have g1 : ∀ (p q : Option (SvObj T)), ((s.objs.set o p).set w q)[o]? = some p := by
    intro p q
    rw [List.getElem?_set_ne hne', List.getElem?_set_self hlo]
  have g2 : ∀ (p q : Option (SvObj T)), ((s.objs.set o p).set w q)[w]? = some q := by
    intro p q
    rw [List.getElem?_set_self (by simpa using hlw)]
  have c1 : ∀ (p q r : Option (SvObj T)), ((s.objs.set o p).set w q).set o r = (s.objs.set o r).set w q := by
    intro p q r
    rw [List.set_comm q r hne', List.set_set]
  have c2 : ∀ (p q r : Option (SvObj T)), ((s.objs.set o p).set w q).set w r = (s.objs.set o p).set w r := by
    intro p q r
    rw [List.set_set]
  have k1 : ∀ (l m : List (Option T)), l.length = N → m.length = N → l.take N ++ m.drop (l.take N).length = l := by
    intro l m hl hm
    rw [List.take_of_length_le (Nat.le_of_eq hl), List.drop_of_length_le (by omega), List.append_nil]
  have tk : ∀ l : List (Option T), l.length = N → l.take N = l := fun l hl => List.take_of_length_le (Nat.le_of_eq hl)
  unfold svSwap
  rw [svObj_eq hx, svObj_eq hy]
  simp only [Res.bind_ok]
  rw [svSetData_eq hx]
  simp only [Res.bind_ok]
  rw [svSetData_eq (s := ⟨s.objs.set o (some ⟨yd, xsd⟩), s.heap⟩) (x := ⟨yd, ysd⟩) (by simp only; rw [List.getElem?_set_ne hne]; exact hy)]
  simp only [Res.bind_ok]
  rw [svObj_eq (s := ⟨(s.objs.set o (some ⟨yd, xsd⟩)).set w (some ⟨xd, ysd⟩), s.heap⟩) (g1 _ _)]
  simp only [Res.bind_ok]
  rcases hokx.2 with ⟨hd, hlen, hag⟩ | ⟨b, l, hd, hl, hlen, hag⟩ <;>
    rcases hoky.2 with ⟨hd', hlen', hag'⟩ | ⟨b', l', hd', hl', hlen', hag'⟩
  · simp only at hd hd'
    subst hd hd'
    simp only at hag hag'
    rw [if_pos rfl, svSetData_eq (g1 _ _)]
    simp only [Res.bind_ok, c1]
    rw [svObj_eq (s := ⟨(s.objs.set o (some ⟨.short o, xsd⟩)).set w (some ⟨.short o, ysd⟩), s.heap⟩) (g2 _ _)]
    simp only [Res.bind_ok]
    rw [if_pos trivial, svSetData_eq (g2 _ _)]
    simp only [Res.bind_ok, c2]
    have q1 : svObj (⟨(s.objs.set o (some ⟨.short o, xsd⟩)).set w (some ⟨.short w, ysd⟩), s.heap⟩ : SvState T) o =
      .ok ⟨.short o, xsd⟩ := svObj_eq (g1 _ _)
    have q2 : svObj (⟨(s.objs.set o (some ⟨.short o, xsd⟩)).set w (some ⟨.short w, ysd⟩), s.heap⟩ : SvState T) w =
      .ok ⟨.short w, ysd⟩ := svObj_eq (g2 _ _)
    have q3 : svObj (⟨(s.objs.set o (some ⟨.short o, ysd⟩)).set w (some ⟨.short w, ysd⟩), s.heap⟩ : SvState T) w =
      .ok ⟨.short w, ysd⟩ := svObj_eq (g2 _ _)
    simp only [svCopy, svElems, q1, q2, Res.bind_ok]
    rw [if_pos ⟨Nat.le_of_eq hyl.symm, .inr (by simp; exact hne)⟩]
    simp only [svPut, svElems, q1, Res.bind_ok, tk ysd hyl]
    rw [if_pos (by rw [hyl, hxl]), List.drop_of_length_le (by omega), List.append_nil]
    simp only [svStore, q1, Res.bind_ok, c1, q3]
    rw [if_pos (by rw [hyl, hxl]), List.drop_of_length_le (by omega), List.append_nil]
    refine ⟨_, rfl, ?_⟩
    simp only [c2]
    have i1 := hi.putShort hx rfl (sd := ysd) (xs := ys) hyl hlen' hag'
    have i2 := i1.putShort (o := w) (x := ⟨.short w, ysd⟩) (by simp only; rw [List.getElem?_set_ne hne]; exact hy) rfl (sd := xsd) (xs := xs) hxl hlen hag
    exact i2
  · simp only at hd hd'
    subst hd hd'
    simp only at hag hag'
    rw [if_neg (by simp)]
    rw [svObj_eq (s := ⟨(s.objs.set o (some ⟨.heap b', xsd⟩)).set w (some ⟨.short o, ysd⟩), s.heap⟩) (g2 _ _)]
    simp only [Res.bind_ok]
    rw [if_pos trivial, svSetData_eq (g2 _ _)]
    simp only [Res.bind_ok, c2]
    have q1 : svObj (⟨(s.objs.set o (some ⟨.heap b', xsd⟩)).set w (some ⟨.short w, ysd⟩), s.heap⟩ : SvState T) o =
      .ok ⟨.heap b', xsd⟩ := svObj_eq (g1 _ _)
    have q2 : svObj (⟨(s.objs.set o (some ⟨.heap b', xsd⟩)).set w (some ⟨.short w, ysd⟩), s.heap⟩ : SvState T) w =
      .ok ⟨.short w, ysd⟩ := svObj_eq (g2 _ _)
    simp only [svCopy, svElems, q1, q2, Res.bind_ok]
    rw [if_pos ⟨Nat.le_of_eq hxl.symm, .inr (by simp; exact hne')⟩]
    simp only [svPut, svElems, q2, Res.bind_ok, tk xsd hxl]
    rw [if_pos (by rw [hyl, hxl]), List.drop_of_length_le (by omega), List.append_nil]
    simp only [svStore, q2, Res.bind_ok, c2]
    refine ⟨_, rfl, ?_⟩
    have i1 := hi.detach hy rfl xsd hxl
    have i2 := i1.attach (o := o) (x := ⟨.short o, xsd⟩) (by simp only; rw [List.getElem?_set_ne hne']; exact hx) rfl hl' hlen' hag'
    have i3 := i2.putShort (o := w) (x := ⟨.short w, xsd⟩)
      (by simp only; rw [List.getElem?_set_ne hne, List.getElem?_set_self hlw]) rfl (sd := xsd) (xs := xs) hxl hlen hag
    simp only at i3
    rw [List.set_comm _ _ hne', List.set_set, List.set_comm _ _ hne', List.set_set] at i3
    exact i3
  · simp only at hd hd'
    subst hd hd'
    simp only at hag hag'
    rw [if_pos rfl, svSetData_eq (g1 _ _)]
    simp only [Res.bind_ok, c1]
    rw [svObj_eq (s := ⟨(s.objs.set o (some ⟨.short o, xsd⟩)).set w (some ⟨.heap b, ysd⟩), s.heap⟩) (g2 _ _)]
    simp only [Res.bind_ok]
    rw [if_neg (by simp)]
    have q1 : svObj (⟨(s.objs.set o (some ⟨.short o, xsd⟩)).set w (some ⟨.heap b, ysd⟩), s.heap⟩ : SvState T) o =
      .ok ⟨.short o, xsd⟩ := svObj_eq (g1 _ _)
    have q2 : svObj (⟨(s.objs.set o (some ⟨.short o, xsd⟩)).set w (some ⟨.heap b, ysd⟩), s.heap⟩ : SvState T) w =
      .ok ⟨.heap b, ysd⟩ := svObj_eq (g2 _ _)
    simp only [svCopy, svElems, q1, q2, Res.bind_ok]
    rw [if_pos ⟨Nat.le_of_eq hyl.symm, .inr (by simp; exact hne)⟩]
    simp only [svPut, svElems, q1, Res.bind_ok, tk ysd hyl]
    rw [if_pos (by rw [hyl, hxl]), List.drop_of_length_le (by omega), List.append_nil]
    simp only [svStore, q1, Res.bind_ok, c1]
    refine ⟨_, rfl, ?_⟩
    have i1 := hi.detach hx rfl ysd hyl
    have i2 := i1.attach (o := w) (x := ⟨.short w, ysd⟩) (by simp only; rw [List.getElem?_set_ne hne]; exact hy) rfl hl hlen hag
    have i3 := i2.putShort (o := o) (x := ⟨.short o, ysd⟩)
      (by simp only; rw [List.getElem?_set_ne hne', List.getElem?_set_self hlo]) rfl (sd := ysd) (xs := ys) hyl hlen' hag'
    simp only at i3
    rw [c1, List.set_comm _ _ hne', List.set_set] at i3
    exact i3
  · simp only at hd hd'
    subst hd hd'
    rw [if_neg (by simp)]
    rw [svObj_eq (s := ⟨(s.objs.set o (some ⟨.heap b', xsd⟩)).set w (some ⟨.heap b, ysd⟩), s.heap⟩) (g2 _ _)]
    simp only [Res.bind_ok]
    rw [if_neg (by simp)]
    refine ⟨_, rfl, ?_⟩
    have i1 := hi.detach hx rfl xsd hxl
    have i2 := i1.detach (o := w) (x := ⟨.heap b', ysd⟩) (by simp only; rw [List.getElem?_set_ne hne]; exact hy) rfl ysd hyl
    have i3 := i2.attach (o := o) (x := ⟨.short o, xsd⟩) (by simp only; exact g1 _ _) rfl hl' hlen' hag'
    have i4 := i3.attach (o := w) (x := ⟨.short w, ysd⟩)
      (by simp only; rw [List.getElem?_set_ne hne]; exact g2 _ _) rfl hl hlen hag
    simp only at i4
    rw [set4 hne, set4 hne] at i4
    exact i4

/-- Each operation does to the objects what it does to the vectors. -/
theorem svStep_sim {N : Nat} {s : SvState T} {a a' : AVecs T} {op : SvOp T} (hi : SvInv N [] s a)
    (ha : vecStep a op = some a') : ∃ s', svStep N s op = .ok s' ∧ SvInv N [] s' a' := by
  have hfr := hi.fresh
  have hfo : (svFresh N s).objs[s.objs.length]? = some (some ⟨.short s.objs.length, List.replicate N none⟩) := by
    unfold svFresh
    simp only [List.getElem?_concat_length]
  have hfo' : SvInv N [] ⟨(svFresh N s).objs.set s.objs.length
      (some { (⟨.short s.objs.length, List.replicate N none⟩ : SvObj T) with data := .short s.objs.length }), (svFresh N s).heap⟩
      (a ++ [some []]) := by
    rw [set_get_self hfo]; exact hfr
  have hset : ∀ xs : List (Option T), (a ++ [some []]).set s.objs.length (some xs) = a ++ [some xs] := by
    intro xs
    rw [hi.len, List.set_append_right _ _ (Nat.le_refl _), Nat.sub_self]
    rfl
  have hlast : ∀ xs : Option (List (Option T)), (a ++ [xs])[s.objs.length]? = some xs := by
    intro xs; rw [hi.len, List.getElem?_concat_length]
  cases op with
  | default =>
    cases ha
    exact ⟨_, rfl, hfr⟩
  | create n =>
    cases ha
    obtain ⟨s', e, i1, -⟩ := svAlloc_ok (n := n) hfo hfo'
    rw [hset] at i1
    exact ⟨s', e, i1⟩
  | createFrom n src =>
    unfold vecStep at ha
    cases hs : a[src]? with
    | none => simp only [hs] at ha; cases ha
    | some v =>
      cases v with
      | none => simp only [hs] at ha; cases ha
      | some xs =>
        simp only [hs] at ha
        by_cases hn : n ≤ xs.length
        · rw [if_pos hn] at ha
          cases ha
          obtain ⟨s1, e1, i1, -⟩ := svAlloc_ok (n := n) hfo hfo'
          rw [hset] at i1
          have hne : s.objs.length ≠ src := by
            have := lt_of_some hs
            rw [hi.len]; omega
          obtain ⟨x, hx, -⟩ := i1.get (hlast _)
          have hsrc : (a ++ [some (List.replicate n none)])[src]? = some (some xs) := by
            rw [List.getElem?_append_left (lt_of_some hs)]; exact hs
          obtain ⟨y, hy, -⟩ := i1.get hsrc
          obtain ⟨s2, e2, i2⟩ := svCopy_ok i1 hx hy hne (hlast _) hsrc (n := n) (by simp) hn
          refine ⟨s2, ?_, ?_⟩
          · simp only [svStep, e1, Res.bind_ok, svObj_eq hx, svObj_eq hy, e2]
          · rw [hi.len, List.set_append_right _ _ (Nat.le_refl _), Nat.sub_self] at i2
            exact i2
        · rw [if_neg hn] at ha; cases ha
  | createData l =>
    cases ha
    obtain ⟨s1, e1, i1, -⟩ := svAlloc_ok (n := l.length) hfo hfo'
    rw [hset] at i1
    obtain ⟨x, hx, -⟩ := i1.get (hlast _)
    obtain ⟨s2, e2, i2⟩ := svPut_ok i1 hx (hlast _) (l := l.map some) (ys := l.map some) (by simp) (Nat.le_refl _)
      (fun _ _ h => h)
    refine ⟨s2, ?_, ?_⟩
    · simp only [svStep, e1, Res.bind_ok, svObj_eq hx, e2]
    · rw [hi.len, List.set_append_right _ _ (Nat.le_refl _), Nat.sub_self] at i2
      exact i2
  | moveNew src =>
    unfold vecStep at ha
    cases hs : a[src]? with
    | none => simp only [hs] at ha; cases ha
    | some v =>
      cases v with
      | none => simp only [hs] at ha; cases ha
      | some xs =>
        simp only [hs, Option.some.injEq] at ha
        subst ha
        have hsl := lt_of_some hs
        have hne : s.objs.length ≠ src := by rw [hi.len]; omega
        have hsrc : (a ++ [some []])[src]? = some (some xs) := by
          rw [List.getElem?_append_left hsl]; exact hs
        obtain ⟨s1, e1, i1⟩ := svTake_ok hfo hfo' hne hsrc
        refine ⟨s1, e1, ?_⟩
        rw [List.set_append_left _ _ hsl, hi.len, List.set_append_right _ _ (by simp)] at i1
        simp only [List.length_set, Nat.sub_self, List.set_cons_zero] at i1
        exact i1
  | init o n =>
    unfold vecStep at ha
    cases hs : a[o]? with
    | none => simp only [hs] at ha; cases ha
    | some v =>
      cases v with
      | none => simp only [hs] at ha; cases ha
      | some xs =>
        simp only [hs, Option.some.injEq] at ha
        subst ha
        obtain ⟨s', e, i, -⟩ := svInit_ok (n := n) hi hs
        exact ⟨s', e, i⟩
  | initData o l =>
    unfold vecStep at ha
    cases hs : a[o]? with
    | none => simp only [hs] at ha; cases ha
    | some v =>
      cases v with
      | none => simp only [hs] at ha; cases ha
      | some xs =>
        simp only [hs, Option.some.injEq] at ha
        subst ha
        have hlo := lt_of_some hs
        obtain ⟨s1, e1, i1, -⟩ := svInit_ok (n := l.length) hi hs
        have hg : (a.set o (some (List.replicate l.length (none : Option T))))[o]? = some (some (List.replicate l.length none)) :=
          List.getElem?_set_self hlo
        obtain ⟨x, hx, -⟩ := i1.get hg
        obtain ⟨s2, e2, i2⟩ := svPut_ok i1 hx hg (l := l.map some) (ys := l.map some) (by simp) (Nat.le_refl _) (fun _ _ h => h)
        refine ⟨s2, ?_, ?_⟩
        · simp only [svStep, e1, Res.bind_ok, svObj_eq hx, e2]
        · rw [List.set_set] at i2
          exact i2
  | initFrom o n src =>
    unfold vecStep at ha
    cases hs : a[o]? with
    | none => simp only [hs] at ha; cases ha
    | some v =>
      cases v with
      | none => simp only [hs] at ha; cases ha
      | some xs0 =>
        cases hs' : a[src]? with
        | none => simp only [hs, hs'] at ha; cases ha
        | some v =>
          cases v with
          | none => simp only [hs, hs'] at ha; cases ha
          | some xs =>
            simp only [hs, hs'] at ha
            by_cases hc : o ≠ src ∧ n ≤ xs.length
            · rw [if_pos hc] at ha
              cases ha
              have hlo := lt_of_some hs
              obtain ⟨y, hy, -⟩ := hi.get hs'
              obtain ⟨s1, e1, i1, hf⟩ := svInit_ok (n := n) hi hs
              have hg : (a.set o (some (List.replicate n (none : Option T))))[o]? = some (some (List.replicate n none)) :=
                List.getElem?_set_self hlo
              have hg' : (a.set o (some (List.replicate n (none : Option T))))[src]? = some (some xs) := by
                rw [List.getElem?_set_ne hc.1]; exact hs'
              obtain ⟨x, hx, -⟩ := i1.get hg
              have hy1 : s1.objs[src]? = some (some y) := by rw [hf src (fun e => hc.1 e.symm)]; exact hy
              obtain ⟨s2, e2, i2⟩ := svCopy_ok i1 hx hy1 hc.1 hg hg' (n := n) (by simp) hc.2
              refine ⟨s2, ?_, ?_⟩
              · simp only [svStep, svObj_eq hy, e1, Res.bind_ok, svObj_eq hx, e2]
              · rw [List.set_set] at i2
                exact i2
            · rw [if_neg hc] at ha; cases ha
  | moveAssign o src =>
    unfold vecStep at ha
    cases hs : a[o]? with
    | none => simp only [hs] at ha; cases ha
    | some v =>
      cases v with
      | none => simp only [hs] at ha; cases ha
      | some xs0 =>
        cases hs' : a[src]? with
        | none => simp only [hs, hs'] at ha; cases ha
        | some v =>
          cases v with
          | none => simp only [hs, hs'] at ha; cases ha
          | some xs =>
            simp only [hs, hs'] at ha
            by_cases hc : o = src
            · rw [if_pos hc] at ha
              cases ha
              exact ⟨s, by simp only [svStep]; rw [if_neg (by simpa using hc)], hi⟩
            · rw [if_neg hc] at ha
              cases ha
              obtain ⟨x, hx, -⟩ := hi.get hs
              obtain ⟨h, e1, i1⟩ := svFree_ok hi hx
              have hg' : (a.set o (some ([] : List (Option T))))[src]? = some (some xs) := by
                rw [List.getElem?_set_ne hc]; exact hs'
              obtain ⟨s2, e2, i2⟩ := svTake_ok (s := ⟨s.objs, h⟩) hx i1 hc hg'
              refine ⟨s2, ?_, ?_⟩
              · simp only [svStep]
                rw [if_pos hc, e1]
                exact e2
              · rw [List.set_comm _ _ hc, List.set_set] at i2
                exact i2
  | swap o w =>
    unfold vecStep at ha
    cases hs : a[o]? with
    | none => simp only [hs] at ha; cases ha
    | some v =>
      cases v with
      | none => simp only [hs] at ha; cases ha
      | some xs0 =>
        cases hs' : a[w]? with
        | none => simp only [hs, hs'] at ha; cases ha
        | some v =>
          cases v with
          | none => simp only [hs, hs'] at ha; cases ha
          | some xs =>
            simp only [hs, hs'] at ha
            by_cases hc : o = w
            · rw [if_pos hc] at ha; cases ha
            · rw [if_neg hc] at ha
              cases ha
              exact svSwap_ok hi hc hs hs'
  | write o i v =>
    unfold vecStep at ha
    cases hs : a[o]? with
    | none => simp only [hs] at ha; cases ha
    | some w =>
      cases w with
      | none => simp only [hs] at ha; cases ha
      | some xs =>
        simp only [hs] at ha
        by_cases hc : i < xs.length
        · rw [if_pos hc] at ha
          cases ha
          have hag2 : ∀ l : List (Option T), i < l.length → Agree xs l → Agree (xs.set i (some v)) (l.set i (some v)) := by
            intro l hl hag j z hj
            by_cases hij : i = j
            · subst hij
              rw [List.getElem?_set_self hc] at hj
              cases hj
              rw [List.getElem?_set_self hl]
            · rw [List.getElem?_set_ne hij] at hj ⊢
              exact hag j z hj
          obtain ⟨x, hx, hok⟩ := hi.get hs
          rcases hok.2 with ⟨hd, hlen, hag⟩ | ⟨b, l, hd, hl, hlen, hag⟩
          · refine ⟨⟨s.objs.set o (some { x with shortdata := x.shortdata.set i (some v) }), s.heap⟩, ?_, ?_⟩
            · simp only [svStep, svObj_eq hx, Res.bind_ok, hd, svElems]
              rw [if_pos (by rw [hok.1]; omega)]
              simp only [svStore, svObj_eq hx, Res.bind_ok, hd]
            · have := hi.putShort hx hd (sd := x.shortdata.set i (some v)) (xs := xs.set i (some v)) (by simpa using hok.1)
                (by simpa using hlen) (hag2 _ (by rw [hok.1]; omega) hag)
              rw [← hd] at this
              exact this
          · refine ⟨⟨s.objs, s.heap.set b (some (l.set i (some v)))⟩, ?_, ?_⟩
            · simp only [svStep, svObj_eq hx, Res.bind_ok, hd, svElems, hl]
              rw [if_pos (by omega)]
              simp only [svStore, hl]
            · exact hi.putHeap hx hd (by simpa using hlen) (hag2 _ (by omega) hag)
        · rw [if_neg hc] at ha; cases ha
  | destroy o =>
    unfold vecStep at ha
    cases hs : a[o]? with
    | none => simp only [hs] at ha; cases ha
    | some v =>
      cases v with
      | none => simp only [hs] at ha; cases ha
      | some xs =>
        simp only [hs, Option.some.injEq] at ha
        subst ha
        obtain ⟨x, hx, -⟩ := hi.get hs
        obtain ⟨h, e1, i1⟩ := svFree_ok hi hx
        have hlo := lt_of_some hx
        refine ⟨⟨s.objs.set o none, h⟩, by simp only [svStep, e1, Res.bind_ok], ?_⟩
        have hget : ∀ (p : Nat) (y : SvObj T), (s.objs.set o none)[p]? = some (some y) → p ≠ o ∧
            (s.objs.set o (some { x with data := SvPtr.short o }))[p]? = some (some y) := by
          intro p y hp
          by_cases hpo : p = o
          · subst hpo
            rw [List.getElem?_set_self hlo] at hp
            cases hp
          · rw [List.getElem?_set_ne (fun e => hpo e.symm)] at hp
            exact ⟨hpo, by rw [List.getElem?_set_ne (fun e => hpo e.symm)]; exact hp⟩
        refine ⟨by simp [hi.len], ?_, ?_, ?_, List.nodup_nil, fun b hb => by cases hb⟩
        · intro p v hv
          by_cases hpo : p = o
          · subst hpo
            rw [List.getElem?_set_self (lt_of_some hs)] at hv
            cases hv
            exact .inl ⟨rfl, List.getElem?_set_self hlo⟩
          · have := i1.obj p v (by rw [List.getElem?_set_ne (fun e => hpo e.symm)] at hv ⊢; exact hv)
            simp only at this ⊢
            rw [List.getElem?_set_ne (fun e => hpo e.symm)] at this ⊢
            exact this
        · intro p q y z b hy hz
          exact i1.inj p q y z b (hget p y hy).2 (hget q z hz).2
        · intro b l hb
          rcases i1.own b l hb with h | ⟨p, y, hy, hyb⟩
          · exact .inl h
          · refine .inr ⟨p, y, ?_, hyb⟩
            simp only at hy ⊢
            by_cases hpo : p = o
            · subst hpo
              rw [List.getElem?_set_self hlo] at hy
              cases hy
              cases hyb
            · rw [List.getElem?_set_ne (fun e => hpo e.symm)] at hy ⊢
              exact hy

theorem SvInv.start (N : Nat) : SvInv N [] (⟨[], []⟩ : SvState T) [] := by
  refine ⟨rfl, fun o v h => by simp at h, fun o _ _ _ _ h => by simp at h, fun b l h => by simp at h, List.nodup_nil,
    fun b h => by cases h⟩

theorem svRun_sim {N : Nat} (ops : List (SvOp T)) {s : SvState T} {a a' : AVecs T} (hi : SvInv N [] s a)
    (ha : vecRun ops a = some a') : ∃ s', svRun N ops s = .ok s' ∧ SvInv N [] s' a' := by
  induction ops generalizing s a with
  | nil => cases ha; exact ⟨s, rfl, hi⟩
  | cons op ops ih =>
    unfold vecRun at ha
    cases h : vecStep a op with
    | none => rw [h] at ha; cases ha
    | some a1 =>
      rw [h] at ha
      obtain ⟨s1, e1, i1⟩ := svStep_sim hi h
      obtain ⟨s2, e2, i2⟩ := ih i1 ha
      exact ⟨s2, by unfold svRun; rw [e1]; exact e2, i2⟩

/-- **C93 (short vectors are vectors).**  In every history of constructions, moves, re-initialisations, swaps, writes and
    destructions allowed for vectors, of any sizes and for any in-object capacity, no operation touches memory that is not there,
    and every element that has been given a value reads back as that value. -/
theorem shortvector_is_vector {N : Nat} {ops : List (SvOp T)} {a : AVecs T} (h : vecRun ops [] = some a) :
    ∃ s, svRun N ops ⟨[], []⟩ = .ok s ∧
      ∀ (o i : Nat) (xs : List (Option T)) (x : T), a[o]? = some (some xs) → xs[i]? = some (some x) → svGet s o i = .ok x := by
  obtain ⟨s, e, i1⟩ := svRun_sim ops (SvInv.start N) h
  refine ⟨s, e, fun o i xs x ho hx => ?_⟩
  obtain ⟨y, l, hy, hl, -, hag⟩ := svElems_ok i1 ho
  unfold svGet
  rw [svObj_eq hy]
  simp only [Res.bind_ok, hl]
  rw [hag i x hx]

/-- **C93 (no leak).**  When every vector has been destroyed, every heap array has been freed (once: freeing twice would be
    undefined behaviour, which the theorem above excludes). -/
theorem shortvector_no_leak {N : Nat} {ops : List (SvOp T)} {a : AVecs T} (h : vecRun ops [] = some a)
    (hd : ∀ v ∈ a, v = none) {s : SvState T} (hs : svRun N ops ⟨[], []⟩ = .ok s) : ∀ m ∈ s.heap, m = none := by
  obtain ⟨s', e, i1⟩ := svRun_sim ops (SvInv.start N) h
  rw [hs] at e
  cases e
  intro m hm
  cases m with
  | none => rfl
  | some l =>
    obtain ⟨b, hb⟩ := List.getElem?_of_mem hm
    rcases i1.own b l hb with h | ⟨o, x, ho, -⟩
    · cases h
    · obtain ⟨xs, hxs, -⟩ := i1.vec ho
      exact absurd (hd _ (List.mem_of_getElem? hxs)) (by simp)

/-- **C93 (short vectors stay off the heap).**  A vector of at most `staticN` elements is constructed and initialised without
    allocating. -/
theorem shortvector_short_no_alloc {N : Nat} {s : SvState T} {n : Nat} (hn : n ≤ N) {s' : SvState T}
    (h : svStep N s (.create n) = .ok s') : s'.heap = s.heap := by
  simp only [svStep, svAlloc] at h
  rw [if_pos hn] at h
  unfold svSetData at h
  rw [Res.bind_eq_ok] at h
  obtain ⟨x, -, h⟩ := h
  cases h
  rfl

/-- **C93 fails for `v.init(n, v.get())`**: the data are freed before they are copied. -/
theorem shortvector_init_self_violated {N n : Nat} {l : List T} (hl : N < l.length) (hn : n ≤ l.length) :
    svRun N [.createData l, .initFrom 0 n 0] ⟨[], []⟩ = .ub := by
  obtain ⟨s, e, i1⟩ := svRun_sim (N := N) [.createData l] (SvInv.start N) (a' := [some (l.map some)]) rfl
  have e' : svStep N ⟨[], []⟩ (.createData l) = .ok s := by
    unfold svRun at e
    rw [Res.bind_eq_ok] at e
    obtain ⟨s1, h1, h2⟩ := e
    cases h2
    exact h1
  have hs : s = ⟨[some ⟨.heap 0, List.replicate N none⟩], [some (l.map some)]⟩ := by
    have h1 : svAlloc N (svFresh N (⟨[], []⟩ : SvState T)) 0 l.length =
        .ok ⟨[some ⟨.heap 0, List.replicate N none⟩], [some (List.replicate l.length none)]⟩ := by
      unfold svAlloc
      rw [if_neg (by omega)]
      rfl
    simp only [svStep, List.length_nil, h1, Res.bind_ok, svObj, List.getElem?_cons_zero, svPut, svElems] at e'
    rw [if_pos (by simp)] at e'
    simp only [svStore, List.getElem?_cons_zero, List.length_map, List.drop_replicate, Nat.sub_self, List.replicate_zero,
      List.append_nil, List.set_cons_zero, Res.ok.injEq] at e'
    exact e'.symm
  show (do let s' ← svStep N ⟨[], []⟩ (.createData l); svRun N [.initFrom 0 n 0] s') = Res.ub
  rw [e', Res.bind_ok, hs]
  unfold svRun
  simp only [svStep, svObj, List.getElem?_cons_zero, Res.bind_ok, svInit, svFree]
  rw [if_pos (by simp)]
  simp only [svDelete, List.getElem?_cons_zero, Res.bind_ok, List.set_cons_zero, svAlloc]
  by_cases hnN : n ≤ N
  · rw [if_pos hnN]
    simp only [svSetData, svObj, List.getElem?_cons_zero, Res.bind_ok, List.set_cons_zero, svCopy, svElems]
    rfl
  · rw [if_neg hnN]
    simp only [svNew, svSetData, svObj, List.getElem?_cons_zero, Res.bind_ok, List.set_cons_zero, svCopy, svElems,
      List.cons_append, List.nil_append]
    rfl

/-- Non-vacuity: a history with short and long vectors. -/
example : vecRun [.createData [1, 2, 3, 4], .create 2, .write 1 0 7, .swap 0 1, .moveNew 1, .init 1 5, .moveAssign 0 2,
    .destroy 2, .destroy 1] ([] : AVecs Nat) = some [some [some 1, some 2, some 3, some 4], none, none] := by decide

/-! ### multi_shortvector -/

/-- **C93 (several vectors in one).**  After construction and `init(n)`, the `M` vectors of `n` elements are independent: an
    element reads back as last written, whatever is written to the others. -/
theorem multi_shortvector_cells {M N n : Nat} {s : MsvState T} (hs : msvInit M N n (msvNew M N) = .ok s) {i j : Nat}
    (hi : i < M) (hj : j < n) (x : T) :
    ∃ s', msvWrite s i j x = .ok s' ∧ msvGet s' i j = .ok x ∧
      ∀ i' j', i' < M → j' < n → (i', j') ≠ (i, j) → msvGet s' i' j' = msvGet s i' j' := by
  have hcell : ∀ i' j', i' < M → j' < n → i' * n + j' < n * M := by
    intro i' j' h1 h2
    have : (i' + 1) * n ≤ M * n := Nat.mul_le_mul_right _ h1
    rw [Nat.add_mul, Nat.one_mul] at this
    rw [Nat.mul_comm n M]
    omega
  have hinj : ∀ i' j', i' < M → j' < n → i' * n + j' = i * n + j → (i', j') = (i, j) := by
    intro i' j' _ h2 e
    have e1 : (i' * n + j') / n = i' := by
      rw [Nat.add_comm, Nat.add_mul_div_right _ _ (by omega), Nat.div_eq_of_lt h2, Nat.zero_add]
    have e2 : (i * n + j) / n = i := by
      rw [Nat.add_comm, Nat.add_mul_div_right _ _ (by omega), Nat.div_eq_of_lt hj, Nat.zero_add]
    have : i' = i := by rw [← e1, ← e2, e]
    subst this
    rw [Nat.add_left_cancel e]
  have hinit : s = msvInternalInit M N n (msvNew M N) := by
    unfold msvInit msvFree msvNew at hs
    simp only [Res.bind_ok, Res.ok.injEq] at hs
    exact hs.symm
  unfold msvInternalInit at hinit
  have hvec : ∀ (p : MsvPtr) (k i' : Nat), i' < M →
      ((List.range M).map fun i => some (p, i * k))[i']? = some (some (p, i' * k)) := by
    intro p k i' h
    rw [List.getElem?_map, List.getElem?_range h]
    rfl
  by_cases hn : n ≤ N
  · rw [if_pos hn] at hinit
    have hn0 : (if n = 0 then 1 else n) = n := if_neg (by omega)
    simp only [hn0] at hinit
    have hst : s.static.length = N * M := by rw [hinit]; simp [msvNew]
    have hle : n * M ≤ N * M := Nat.mul_le_mul_right _ hn
    have hv : ∀ i', i' < M → s.vecs[i']? = some (some (.static, i' * n)) := by
      intro i' h; rw [hinit]; exact hvec _ _ _ h
    have hc := hcell i j hi hj
    refine ⟨{ s with static := s.static.set (i * n + j) (some x) }, ?_, ?_, ?_⟩
    · unfold msvWrite
      rw [hv i hi]
      simp only
      rw [if_pos (by omega)]
    · unfold msvGet
      simp only [hv i hi]
      rw [List.getElem?_set_self (by omega)]
    · intro i' j' h1 h2 hne
      unfold msvGet
      simp only [hv i' h1]
      rw [List.getElem?_set_ne (fun e => hne (hinj i' j' h1 h2 e.symm))]
  · rw [if_neg hn] at hinit
    have hv : ∀ i', i' < M → s.vecs[i']? = some (some (.heap 0, i' * n)) := by
      intro i' h; rw [hinit]; exact hvec _ _ _ h
    have hh : s.heap = [some (List.replicate (n * M) none)] := by rw [hinit]; rfl
    have hc := hcell i j hi hj
    refine ⟨{ s with heap := [some ((List.replicate (n * M) none).set (i * n + j) (some x))] }, ?_, ?_, ?_⟩
    · unfold msvWrite
      rw [hv i hi, hh]
      simp only [List.getElem?_cons_zero, List.set_cons_zero]
      rw [if_pos (by simpa using hc)]
    · unfold msvGet
      simp only [hv i hi, List.getElem?_cons_zero]
      rw [List.getElem?_set_self (by simpa using hc)]
    · intro i' j' h1 h2 hne
      unfold msvGet
      simp only [hv i' h1, hh, List.getElem?_cons_zero]
      rw [List.getElem?_set_ne (fun e => hne (hinj i' j' h1 h2 e.symm))]

/-- A sequence of `init` calls. -/
def msvInits (M N : Nat) : List Nat → MsvState T → Res (MsvState T)
  | [], s => .ok s
  | n :: ns, s => do
    let s ← msvInit M N n s
    msvInits M N ns s

/-- **C93 (several vectors in one, lifetime).**  A sequence of `init` calls followed by destruction is well-defined and frees
    every array exactly if no call with at most `staticN` elements comes after one with more: `init` with few elements leaves
    `m_alloc_data` pointing to the array it has just freed, and the next `init` or the destructor frees it again. -/
theorem multi_shortvector_lifetime (M N : Nat) (ns : List Nat) :
    (∃ h, (do let s ← msvInits M N ns (msvNew M N : MsvState T); msvDestroy s) = .ok h ∧ ∀ m ∈ h, m = none) ↔
      ns.Pairwise fun n m => N < n → N < m := by
  have run_cons : ∀ (n : Nat) (ns : List Nat) (s : MsvState T), (do let s ← msvInits M N (n :: ns) s; msvDestroy s) =
      (do let s ← msvFree s; (do let s ← msvInits M N ns (msvInternalInit M N n s); msvDestroy s) : Res _) := by
    intro n ns s
    rw [msvInits]
    unfold msvInit
    cases msvFree s <;> rfl
  have dang : ∀ (ns : List Nat) (s : MsvState T) (b : Nat), s.alloc = some b → (∀ l, s.heap[b]? ≠ some (some l)) →
      ∀ h, (do let s ← msvInits M N ns s; msvDestroy s) ≠ .ok h := by
    intro ns s b ha hb h
    have hf : msvFree s = .ub := by
      unfold msvFree
      simp only [ha]
    cases ns with
    | nil =>
      show msvDestroy s ≠ _
      unfold msvDestroy
      rw [hf]
      simp
    | cons n ns =>
      rw [run_cons, hf]
      simp
  have large : ∀ (ns : List Nat) (h0 : List (Option (List (Option T)))) (l : List (Option T)) (vs : List (Option (MsvPtr × Nat)))
      (st : List (Option T)), (∀ m ∈ h0, m = none) →
      ((∃ h, (do let s ← msvInits M N ns (⟨vs, st, some h0.length, h0 ++ [some l]⟩ : MsvState T); msvDestroy s) = .ok h ∧
        ∀ m ∈ h, m = none) ↔ ∀ m ∈ ns, N < m) := by
    intro ns
    induction ns with
    | nil =>
      intro h0 l vs st hh
      refine Iff.intro (fun _ m hm => absurd hm (by simp)) (fun _ => ⟨h0 ++ [none], ?_, ?_⟩)
      · simp [msvInits, msvDestroy, msvFree]
      · intro m hm
        rcases List.mem_append.1 hm with h | h
        · exact hh m h
        · simpa using h
    | cons n ns ih =>
      intro h0 l vs st hh
      have hf : msvFree (⟨vs, st, some h0.length, h0 ++ [some l]⟩ : MsvState T) = .ok ⟨vs, st, some h0.length, h0 ++ [none]⟩ := by
        simp [msvFree]
      rw [run_cons, hf, Res.bind_ok]
      by_cases hn : n ≤ N
      · constructor
        · rintro ⟨h, e, -⟩
          refine absurd e (dang ns _ h0.length ?_ ?_ h)
          · unfold msvInternalInit; rw [if_pos hn]
          · unfold msvInternalInit; rw [if_pos hn]; simp
        · intro h
          have := h n List.mem_cons_self
          omega
      · unfold msvInternalInit
        rw [if_neg hn]
        simp only
        rw [ih (h0 ++ [none]) _ _ _ (by
          intro m hm
          rcases List.mem_append.1 hm with h | h
          · exact hh m h
          · simpa using h)]
        constructor
        · intro h m hm
          rcases List.mem_cons.1 hm with rfl | hm
          · omega
          · exact h m hm
        · exact fun h m hm => h m (List.mem_cons_of_mem _ hm)
  have small : ∀ (ns : List Nat) (vs : List (Option (MsvPtr × Nat))) (st : List (Option T)),
      ((∃ h, (do let s ← msvInits M N ns (⟨vs, st, none, []⟩ : MsvState T); msvDestroy s) = .ok h ∧
        ∀ m ∈ h, m = none) ↔ ns.Pairwise fun n m => N < n → N < m) := by
    intro ns
    induction ns with
    | nil =>
      intro vs st
      exact ⟨fun _ => List.Pairwise.nil, fun _ => ⟨[], rfl, by simp⟩⟩
    | cons n ns ih =>
      intro vs st
      have hf : msvFree (⟨vs, st, none, []⟩ : MsvState T) = .ok ⟨vs, st, none, []⟩ := rfl
      rw [run_cons, hf, Res.bind_ok, List.pairwise_cons]
      unfold msvInternalInit
      by_cases hn : n ≤ N
      · rw [if_pos hn]
        simp only
        rw [ih]
        exact ⟨fun h => ⟨fun m _ h' => by omega, h⟩, fun h => h.2⟩
      · rw [if_neg hn]
        simp only
        have := large ns [] (List.replicate (n * M) none) ((List.range M).map fun i => some (.heap 0, i * n)) st (by simp)
        refine Iff.trans this ?_
        constructor
        · intro h
          exact ⟨fun m hm _ => h m hm, List.pairwise_of_forall_mem_list fun x _ y hy _ => h y hy⟩
        · exact fun h m hm => h.1 m hm (by omega)
  exact small ns _ _

/-- Non-vacuity: growing is fine; shrinking after growing is not. -/
example : [2, 3, 5, 7].Pairwise (fun n m => 3 < n → 3 < m) ∧ ¬ [5, 2].Pairwise (fun n m => 3 < n → 3 < m) := by decide

end
end Dynd
