import Verif.Model.Destroy
import Mathlib.Data.List.Perm.Basic
import Mathlib.Data.List.Perm.Lattice
/-
C101: destroying an array releases everything it owns exactly once.
-/
namespace Dynd

/-! ## Specification -/

mutual
/-- The places of the objects that have to be released and live in the memory of one element at `p`. -/
def DTy.held : DTy → DPlace → List DPlace
  | .plain, _ => []
  | .owner, p => [p]
  | .unfinished, p => [p]
  | .fixed n s t, p => (List.range n).flatMap fun (i : Nat) => t.held (p.1, p.2 + i * s)
  | .tuple fs, p => fs.held p
  | .option t, p => t.held p
  | .var _ _ _, _ => []
  | .pointer _ _ _, _ => []
  | .adapt t, p => t.held p
/-- The same for the fields of a tuple. -/
def DFields.held : DFields → DPlace → List DPlace
  | .nil, _ => []
  | .cons off t fs, p => t.held (p.1, p.2 + off) ++ fs.held p
end

/-- The objects living in a memory block: in the elements in use of every chunk. -/
def blockHeld (t : DTy) (stride : Int) (chunks : List (Nat × Nat)) : List DPlace :=
  chunks.flatMap fun c => (List.range c.2).flatMap fun (i : Nat) => t.held (c.1, i * stride)

mutual
/-- The objects that live in the memory blocks an array refers to. -/
def DTy.behind : DTy → List DPlace
  | .plain | .owner | .unfinished | .adapt _ => []
  | .fixed _ _ t => t.behind
  | .tuple fs => fs.behind
  | .option t => t.behind
  | .var chunks s t => blockHeld t s chunks ++ t.behind
  | .pointer chunks s t => blockHeld t s chunks ++ t.behind
/-- The same for fields. -/
def DFields.behind : DFields → List DPlace
  | .nil => []
  | .cons _ t fs => t.behind ++ fs.behind
end

mutual
/-- The chunks of all memory blocks an array refers to. -/
def DTy.chunkIds : DTy → List Nat
  | .plain | .owner | .unfinished | .adapt _ => []
  | .fixed _ _ t => t.chunkIds
  | .tuple fs => fs.chunkIds
  | .option t => t.chunkIds
  | .var chunks _ t => chunks.map Prod.fst ++ t.chunkIds
  | .pointer chunks _ t => chunks.map Prod.fst ++ t.chunkIds
/-- The same for fields. -/
def DFields.chunkIds : DFields → List Nat
  | .nil => []
  | .cons _ t fs => t.chunkIds ++ fs.chunkIds
end

mutual
/-- Elements of this type have nothing to release in their own memory. -/
def DTy.Bare : DTy → Prop
  | .plain => True
  | .owner | .unfinished => False
  | .fixed _ _ t => t.Bare
  | .tuple fs => fs.Bare
  | .option t => t.Bare
  | .var _ _ _ => True
  | .pointer _ _ t => t.Bare
  | .adapt _ => True
/-- The same for fields. -/
def DFields.Bare : DFields → Prop
  | .nil => True
  | .cons _ t fs => t.Bare ∧ fs.Bare
end

mutual
/-- No callable, array or adapt type anywhere, and pointers only to types with nothing to release. -/
def DTy.Finished : DTy → Prop
  | .plain | .owner => True
  | .unfinished | .adapt _ => False
  | .fixed _ _ t => t.Finished
  | .tuple fs => fs.Finished
  | .option t => t.Finished
  | .var _ _ t => t.Finished
  | .pointer _ _ t => t.Bare ∧ t.Finished
/-- The same for fields. -/
def DFields.Finished : DFields → Prop
  | .nil => True
  | .cons _ t fs => t.Finished ∧ fs.Finished
end

/-- Nothing is released in a chunk that has been freed. -/
def NoUseAfterFree (ev : List DEvent) : Prop :=
  ev.Pairwise fun e e' => ∀ c o, e = .free c → e' ≠ .release (c, o)

/-! ## Proofs -/

mutual
theorem DTy.dtor_bare : ∀ {t : DTy}, t.dtor = false ↔ t.Bare
  | .plain => by simp [DTy.dtor, DTy.Bare]
  | .owner => by simp [DTy.dtor, DTy.Bare]
  | .unfinished => by simp [DTy.dtor, DTy.Bare]
  | .fixed _ _ t => by simp only [DTy.dtor, DTy.Bare]; exact DTy.dtor_bare
  | .tuple fs => by simp only [DTy.dtor, DTy.Bare]; exact DFields.dtor_bare
  | .option t => by simp only [DTy.dtor, DTy.Bare]; exact DTy.dtor_bare
  | .var _ _ t => by simp [DTy.dtor, DTy.Bare]
  | .pointer _ _ t => by simp only [DTy.dtor, DTy.Bare]; exact DTy.dtor_bare
  | .adapt t => by simp [DTy.dtor, DTy.Bare]
theorem DFields.dtor_bare : ∀ {fs : DFields}, fs.dtor = false ↔ fs.Bare
  | .nil => by simp [DFields.dtor, DFields.Bare]
  | .cons _ t fs => by
    simp only [DFields.dtor, DFields.Bare, Bool.or_eq_false_iff]
    rw [DTy.dtor_bare (t := t), DFields.dtor_bare (fs := fs)]
end

mutual
theorem DTy.held_bare : ∀ {t : DTy}, t.Finished → t.Bare → ∀ p, t.held p = []
  | .plain, _, _, _ => rfl
  | .owner, _, h, _ => by simp [DTy.Bare] at h
  | .unfinished, h, _, _ => by simp [DTy.Finished] at h
  | .fixed _ _ t, hf, h, p => by
    simp only [DTy.Finished] at hf; simp only [DTy.Bare] at h
    simp only [DTy.held]
    rw [List.flatMap_congr (g := fun _ => []) (fun i _ => DTy.held_bare hf h _)]
    simp
  | .tuple fs, hf, h, p => by
    simp only [DTy.Finished] at hf; simp only [DTy.Bare] at h
    simp only [DTy.held]; exact DFields.held_bare hf h p
  | .option t, hf, h, p => by
    simp only [DTy.Finished] at hf; simp only [DTy.Bare] at h
    simp only [DTy.held]; exact DTy.held_bare hf h p
  | .var _ _ _, _, _, _ => by simp only [DTy.held]
  | .pointer _ _ _, _, _, _ => by simp only [DTy.held]
  | .adapt _, h, _, _ => by simp [DTy.Finished] at h
theorem DFields.held_bare : ∀ {fs : DFields}, fs.Finished → fs.Bare → ∀ p, fs.held p = []
  | .nil, _, _, _ => rfl
  | .cons _ t fs, hf, h, p => by
    simp only [DFields.Finished] at hf; simp only [DFields.Bare] at h
    simp only [DFields.held]
    rw [DTy.held_bare hf.1 h.1, DFields.held_bare hf.2 h.2]; rfl
end

/-- `n` elements one after the other. -/
def heldN (g : DPlace → List DPlace) (p : DPlace) (s : Int) (n : Nat) : List DPlace :=
  (List.range n).flatMap fun (i : Nat) => g (p.1, p.2 + i * s)

theorem heldN_split (g : DPlace → List DPlace) (p : DPlace) (s : Int) (a b : Nat) :
    heldN g p s (a + b) = heldN g p s a ++ heldN g (DPlace.add p (s * a)) s b := by
  simp only [heldN, List.range_add, List.flatMap_append, List.flatMap_map, DPlace.add]
  congr 1
  refine List.flatMap_congr fun i _ => ?_
  congr 2
  push_cast
  rw [Int.add_mul, Int.mul_comm s, Int.add_assoc]

theorem dLoop_held {f : DPlace → Res (List DEvent)} {g : DPlace → List DPlace} {s : Int}
    (h : ∀ p, ∃ ev, f p = .ok ev ∧ ev.Perm ((g p).map .release)) : ∀ (n : Nat) (p : DPlace),
    ∃ ev, dLoop f s n p = .ok ev ∧ ev.Perm ((heldN g p s n).map .release)
  | 0, _ => ⟨[], rfl, by simp [heldN]⟩
  | n + 1, p => by
    obtain ⟨a, ha, pa⟩ := h p
    obtain ⟨b, hb, pb⟩ := dLoop_held (s := s) h n (DPlace.add p s)
    refine ⟨a ++ b, by simp only [dLoop, ha, hb, Res.bind_ok, Res.pure_eq], ?_⟩
    rw [Nat.add_comm, heldN_split, List.map_append]
    refine List.Perm.append ?_ ?_
    · simpa [heldN] using pa
    · simpa using pb

theorem dChunks_held {f : DPlace → Nat → Res (List DEvent)} {g : DPlace → List DPlace} {s : Int}
    (h : ∀ p n, ∃ ev, f p n = .ok ev ∧ ev.Perm ((heldN g p s n).map .release)) : ∀ (fuel n : Nat) (p : DPlace), n ≤ fuel →
    ∃ ev, dChunks f s fuel p n = .ok ev ∧ ev.Perm ((heldN g p s n).map .release)
  | fuel, 0, _, _ => ⟨[], by simp [dChunks], by simp [heldN]⟩
  | 0, n + 1, _, hn => by omega
  | fuel + 1, n + 1, p, hn => by
    obtain ⟨a, ha, pa⟩ := h p (min (n + 1) 128)
    obtain ⟨b, hb, pb⟩ := dChunks_held h fuel (n + 1 - min (n + 1) 128) (DPlace.add p (s * (min (n + 1) 128 : Nat))) (by omega)
    refine ⟨a ++ b, by simp only [dChunks, ha, hb, Res.bind_ok, Res.pure_eq], ?_⟩
    have : n + 1 = min (n + 1) 128 + (n + 1 - min (n + 1) 128) := by omega
    have h' := heldN_split g p s (min (n + 1) 128) (n + 1 - min (n + 1) 128)
    rw [← this] at h'
    rw [h', List.map_append]
    exact pa.append pb

mutual
theorem DTy.destruct_held : ∀ {t : DTy}, t.Finished → t.dtor = true → ∀ p,
    ∃ ev, t.destruct true p = .ok ev ∧ ev.Perm ((t.held p).map .release)
  | .plain, _, h, _ => by simp [DTy.dtor] at h
  | .owner, _, _, p => ⟨_, rfl, by simp [DTy.held]⟩
  | .unfinished, h, _, _ => by simp [DTy.Finished] at h
  | .fixed n s t, hf, h, p => by
    simp only [DTy.Finished] at hf; simp only [DTy.dtor] at h
    obtain ⟨ev, he, pe⟩ := DTy.strided_held hf h p s n
    exact ⟨ev, by simpa only [DTy.destruct, if_true] using he, by simpa only [DTy.held, heldN] using pe⟩
  | .tuple fs, hf, _, p => by
    simp only [DTy.Finished] at hf
    obtain ⟨ev, he, pe⟩ := DFields.destruct_held hf p
    exact ⟨ev, by simpa only [DTy.destruct] using he, by simpa only [DTy.held] using pe⟩
  | .option t, hf, h, p => by
    simp only [DTy.Finished] at hf; simp only [DTy.dtor] at h
    obtain ⟨ev, he, pe⟩ := DTy.destruct_held hf h p
    exact ⟨ev, by simpa only [DTy.destruct] using he, by simpa only [DTy.held] using pe⟩
  | .var _ _ _, _, h, _ => by simp [DTy.dtor] at h
  | .pointer _ _ t, hf, h, _ => by
    simp only [DTy.Finished] at hf; simp only [DTy.dtor] at h
    rw [DTy.dtor_bare.2 hf.1] at h; cases h
  | .adapt _, h, _, _ => by simp [DTy.Finished] at h
theorem DTy.strided_held : ∀ {t : DTy}, t.Finished → t.dtor = true → ∀ p s n,
    ∃ ev, t.destructStrided true p s n = .ok ev ∧ ev.Perm ((heldN t.held p s n).map .release)
  | .plain, _, h, _, _, _ => by simp [DTy.dtor] at h
  | .owner, _, _, p, s, n => by
    simp only [DTy.destructStrided]
    exact dLoop_held (fun p => ⟨_, rfl, by simp [DTy.held]⟩) n p
  | .unfinished, h, _, _, _, _ => by simp [DTy.Finished] at h
  | .fixed m ms t, hf, h, p, s, n => by
    simp only [DTy.Finished] at hf; simp only [DTy.dtor] at h
    simp only [DTy.destructStrided, if_true]
    refine dLoop_held (fun p => ?_) n p
    obtain ⟨ev, he, pe⟩ := DTy.strided_held hf h p ms m
    exact ⟨ev, he, by simpa only [DTy.held, heldN] using pe⟩
  | .tuple fs, hf, _, p, s, n => by
    simp only [DTy.Finished] at hf
    simp only [DTy.destructStrided]
    refine dChunks_held (fun p c => ?_) n n p (Nat.le_refl _)
    obtain ⟨ev, he, pe⟩ := DFields.strided_held hf p s c
    exact ⟨ev, he, pe⟩
  | .option t, hf, h, p, s, n => by
    simp only [DTy.Finished] at hf; simp only [DTy.dtor] at h
    obtain ⟨ev, he, pe⟩ := DTy.strided_held hf h p s n
    exact ⟨ev, by simpa only [DTy.destructStrided] using he, pe⟩
  | .var _ _ _, _, h, _, _, _ => by simp [DTy.dtor] at h
  | .pointer _ _ t, hf, h, _, _, _ => by
    simp only [DTy.Finished] at hf; simp only [DTy.dtor] at h
    rw [DTy.dtor_bare.2 hf.1] at h; cases h
  | .adapt _, h, _, _, _, _ => by simp [DTy.Finished] at h
theorem DFields.destruct_held : ∀ {fs : DFields}, fs.Finished → ∀ p,
    ∃ ev, fs.destruct true p = .ok ev ∧ ev.Perm ((fs.held p).map .release)
  | .nil, _, _ => ⟨[], rfl, by simp [DFields.held]⟩
  | .cons off t fs, hf, p => by
    simp only [DFields.Finished] at hf
    obtain ⟨b, hb, pb⟩ := DFields.destruct_held hf.2 p
    cases h : t.dtor
    · refine ⟨b, by simp [DFields.destruct, h, hb], ?_⟩
      rw [DFields.held, DTy.held_bare hf.1 (DTy.dtor_bare.1 h)]
      exact pb
    · obtain ⟨a, ha, pa⟩ := DTy.destruct_held hf.1 h (DPlace.add p off)
      refine ⟨a ++ b, by simp [DFields.destruct, h, ha, hb], ?_⟩
      rw [DFields.held, List.map_append]
      exact pa.append pb
theorem DFields.strided_held : ∀ {fs : DFields}, fs.Finished → ∀ p s n,
    ∃ ev, fs.destructStrided true p s n = .ok ev ∧ ev.Perm ((heldN fs.held p s n).map .release)
  | .nil, _, _, _, _ => ⟨[], rfl, by simp [DFields.held, heldN]⟩
  | .cons off t fs, hf, p, s, n => by
    simp only [DFields.Finished] at hf
    obtain ⟨b, hb, pb⟩ := DFields.strided_held hf.2 p s n
    cases h : t.dtor
    · refine ⟨b, by simp [DFields.destructStrided, h, hb], ?_⟩
      refine pb.trans (List.Perm.of_eq ?_)
      simp only [heldN, DFields.held]
      congr 1
      refine List.flatMap_congr fun i _ => ?_
      rw [DTy.held_bare hf.1 (DTy.dtor_bare.1 h)]; rfl
    · obtain ⟨a, ha, pa⟩ := DTy.strided_held hf.1 h (DPlace.add p off) s n
      refine ⟨a ++ b, by simp [DFields.destructStrided, h, ha, hb], ?_⟩
      have e1 : heldN t.held (DPlace.add p off) s n = (List.range n).flatMap fun (i : Nat) => t.held (p.1, p.2 + i * s + off) := by
        simp only [heldN, DPlace.add]
        refine List.flatMap_congr fun i _ => ?_
        congr 2; omega
      refine (pa.append pb).trans ?_
      rw [← List.map_append, e1]
      exact (List.flatMap_append_perm _ _ _).map _
end

mutual
theorem DTy.held_region : ∀ {t : DTy} {p q : DPlace}, q ∈ t.held p → q.1 = p.1
  | .plain, p, q, h => by simp [DTy.held] at h
  | .owner, p, q, h => by simp [DTy.held] at h; rw [h]
  | .unfinished, p, q, h => by simp [DTy.held] at h; rw [h]
  | .fixed _ _ t, p, q, h => by
    simp only [DTy.held, List.mem_flatMap] at h
    obtain ⟨i, _, h⟩ := h
    exact (DTy.held_region (p := (p.1, _)) h).trans rfl
  | .tuple fs, p, q, h => by simp only [DTy.held] at h; exact DFields.held_region h
  | .option t, p, q, h => by simp only [DTy.held] at h; exact DTy.held_region h
  | .var _ _ _, p, q, h => by simp [DTy.held] at h
  | .pointer _ _ _, p, q, h => by simp [DTy.held] at h
  | .adapt t, p, q, h => by simp only [DTy.held] at h; exact DTy.held_region h
theorem DFields.held_region : ∀ {fs : DFields} {p q : DPlace}, q ∈ fs.held p → q.1 = p.1
  | .nil, p, q, h => by simp [DFields.held] at h
  | .cons _ t fs, p, q, h => by
    simp only [DFields.held, List.mem_append] at h
    rcases h with h | h
    · exact (DTy.held_region h).trans rfl
    · exact DFields.held_region h
end

theorem blockHeld_region {t : DTy} {s : Int} {chunks : List (Nat × Nat)} {q : DPlace} (h : q ∈ blockHeld t s chunks) :
    q.1 ∈ chunks.map Prod.fst := by
  simp only [blockHeld, List.mem_flatMap] at h
  obtain ⟨c, hc, i, _, h⟩ := h
  exact List.mem_map.2 ⟨c, hc, (DTy.held_region h).symm⟩

mutual
theorem DTy.behind_region : ∀ {t : DTy} {q : DPlace}, q ∈ t.behind → q.1 ∈ t.chunkIds
  | .plain, _, h => by simp [DTy.behind] at h
  | .owner, _, h => by simp [DTy.behind] at h
  | .unfinished, _, h => by simp [DTy.behind] at h
  | .adapt _, _, h => by simp [DTy.behind] at h
  | .fixed _ _ t, _, h => by simp only [DTy.behind] at h; simp only [DTy.chunkIds]; exact DTy.behind_region h
  | .tuple fs, _, h => by simp only [DTy.behind] at h; simp only [DTy.chunkIds]; exact DFields.behind_region h
  | .option t, _, h => by simp only [DTy.behind] at h; simp only [DTy.chunkIds]; exact DTy.behind_region h
  | .var chunks s t, _, h => by
    simp only [DTy.behind, List.mem_append] at h
    simp only [DTy.chunkIds, List.mem_append]
    exact h.imp blockHeld_region DTy.behind_region
  | .pointer chunks s t, _, h => by
    simp only [DTy.behind, List.mem_append] at h
    simp only [DTy.chunkIds, List.mem_append]
    exact h.imp blockHeld_region DTy.behind_region
theorem DFields.behind_region : ∀ {fs : DFields} {q : DPlace}, q ∈ fs.behind → q.1 ∈ fs.chunkIds
  | .nil, _, h => by simp [DFields.behind] at h
  | .cons _ t fs, _, h => by
    simp only [DFields.behind, List.mem_append] at h
    simp only [DFields.chunkIds, List.mem_append]
    exact h.imp DTy.behind_region DFields.behind_region
end

/-- What a step of the destruction did: these releases and frees, none of them after its memory was freed. -/
def Did (r : Res (List DEvent)) (rel : List DPlace) (fr : List Nat) : Prop :=
  ∃ ev, r = .ok ev ∧ ev.Perm (rel.map .release ++ fr.map .free) ∧ NoUseAfterFree ev

theorem noUse_append {a b : List DEvent} {ra rb : List DPlace} {fa fb : List Nat}
    (pa : a.Perm (ra.map .release ++ fa.map .free)) (ua : NoUseAfterFree a)
    (pb : b.Perm (rb.map .release ++ fb.map .free)) (ub : NoUseAfterFree b)
    (hd : ∀ q ∈ rb, q.1 ∉ fa) :
    (a ++ b).Perm ((ra ++ rb).map .release ++ (fa ++ fb).map .free) ∧ NoUseAfterFree (a ++ b) := by
  constructor
  · refine (pa.append pb).trans ?_
    rw [List.map_append, List.map_append]
    simp only [List.append_assoc]
    refine List.Perm.append_left _ ?_
    rw [← List.append_assoc, ← List.append_assoc]
    exact List.Perm.append_right _ List.perm_append_comm
  · refine List.pairwise_append.2 ⟨ua, ub, ?_⟩
    rintro e he e' he' c o rfl rfl
    have h1 := pa.mem_iff.1 he
    have h2 := pb.mem_iff.1 he'
    simp at h1 h2
    exact hd _ h2 h1

theorem releases_noUse {ev : List DEvent} {rel : List DPlace} (h : ev.Perm (rel.map .release)) : NoUseAfterFree ev := by
  refine List.Pairwise.imp_of_mem ?_ (List.pairwise_of_forall (R := fun _ _ => True) (fun _ _ => trivial))
  rintro e e' he _ _ c o rfl
  have := h.mem_iff.1 he
  simp at this

theorem frees_noUse (fr : List Nat) : NoUseAfterFree (fr.map .free) := by
  refine List.Pairwise.imp_of_mem ?_ (List.pairwise_of_forall (R := fun _ _ => True) (fun _ _ => trivial))
  rintro e e' _ he _ c o _ rfl
  simp at he

theorem destroyObjects_did {t : DTy} {s : Int} (hf : t.Finished) (hd : t.dtor = true) : ∀ (chunks : List (Nat × Nat)),
    (chunks.map Prod.fst).Nodup → Did (destroyObjects true s t chunks) (blockHeld t s chunks) (chunks.map Prod.fst)
  | [], _ => ⟨[], rfl, by simp [blockHeld], List.Pairwise.nil⟩
  | c :: cs, hn => by
    rw [List.map_cons, List.nodup_cons] at hn
    obtain ⟨a, ha, pa⟩ := DTy.strided_held hf hd (c.1, 0) s c.2
    obtain ⟨b, hb, pb, ub⟩ := destroyObjects_did (s := s) hf hd cs hn.2
    have h1 := noUse_append (fa := []) (rb := []) (fb := [c.1]) (b := [.free c.1]) (by simpa using pa) (releases_noUse pa)
      (by simp) (by exact frees_noUse [c.1]) (by simp)
    have h2 := noUse_append (by simpa using h1.1) h1.2 pb ub (fa := [c.1]) (by
      intro q hq hc
      rw [List.mem_singleton] at hc
      exact hn.1 (hc ▸ blockHeld_region hq))
    refine ⟨a ++ [.free c.1] ++ b, by simp only [destroyObjects, ha, hb, Res.bind_ok, Res.pure_eq], ?_, h2.2⟩
    refine h2.1.trans (List.Perm.of_eq ?_)
    simp [blockHeld, heldN]

theorem blockHeld_bare {t : DTy} {s : Int} (hf : t.Finished) (hb : t.Bare) (chunks : List (Nat × Nat)) :
    blockHeld t s chunks = [] := by
  simp [blockHeld, DTy.held_bare hf hb]

mutual
theorem DTy.dropMeta_did : ∀ {t : DTy}, t.Finished → t.chunkIds.Nodup → Did t.dropMeta t.behind t.chunkIds
  | .plain, _, _ => ⟨[], rfl, by simp [DTy.behind, DTy.chunkIds], List.Pairwise.nil⟩
  | .owner, _, _ => ⟨[], rfl, by simp [DTy.behind, DTy.chunkIds], List.Pairwise.nil⟩
  | .unfinished, h, _ => by simp [DTy.Finished] at h
  | .adapt _, h, _ => by simp [DTy.Finished] at h
  | .fixed _ _ t, hf, hn => by
    simp only [DTy.Finished] at hf; simp only [DTy.chunkIds] at hn
    simp only [DTy.dropMeta, DTy.behind, DTy.chunkIds]; exact DTy.dropMeta_did hf hn
  | .tuple fs, hf, hn => by
    simp only [DTy.Finished] at hf; simp only [DTy.chunkIds] at hn
    simp only [DTy.dropMeta, DTy.behind, DTy.chunkIds]; exact DFields.dropMeta_did hf hn
  | .option t, hf, hn => by
    simp only [DTy.Finished] at hf; simp only [DTy.chunkIds] at hn
    simp only [DTy.dropMeta, DTy.behind, DTy.chunkIds]; exact DTy.dropMeta_did hf hn
  | .var chunks s t, hf, hn => by
    simp only [DTy.Finished] at hf; simp only [DTy.chunkIds, List.nodup_append] at hn
    obtain ⟨b, hb, pb, ub⟩ := DTy.dropMeta_did hf hn.2.1
    have : Did (if t.dtor then destroyObjects true s t chunks else .ok (freeChunks chunks)) (blockHeld t s chunks) (chunks.map Prod.fst) := by
      cases hd : t.dtor
      · refine ⟨freeChunks chunks, by simp, ?_, ?_⟩
        · rw [blockHeld_bare hf (DTy.dtor_bare.1 hd)]
          simp only [freeChunks, List.map_nil, List.nil_append, List.map_map]; exact List.Perm.refl _
        · have := frees_noUse (chunks.map Prod.fst)
          rw [List.map_map] at this
          exact this
      · simpa using destroyObjects_did hf hd chunks hn.1
    obtain ⟨a, ha, pa, ua⟩ := this
    have h := noUse_append pa ua pb ub (fun q hq hc => hn.2.2 _ hc _ (DTy.behind_region hq) rfl)
    refine ⟨a ++ b, ?_, by simpa only [DTy.behind, DTy.chunkIds] using h.1, h.2⟩
    rw [DTy.dropMeta]
    cases hd : t.dtor <;> simp only [hd, if_true, Bool.false_eq_true, if_false] at ha ⊢ <;> simp [ha, hb]
  | .pointer chunks s t, hf, hn => by
    simp only [DTy.Finished] at hf; simp only [DTy.chunkIds, List.nodup_append] at hn
    obtain ⟨b, hb, pb, ub⟩ := DTy.dropMeta_did hf.2 hn.2.1
    have h := noUse_append (a := freeChunks chunks) (ra := []) (fa := chunks.map Prod.fst) (by simp only [freeChunks, List.map_nil, List.nil_append, List.map_map]; exact List.Perm.refl _)
      (by have := frees_noUse (chunks.map Prod.fst); rw [List.map_map] at this; exact this)
      pb ub (fun q hq hc => hn.2.2 _ hc _ (DTy.behind_region hq) rfl)
    refine ⟨freeChunks chunks ++ b, by simp only [DTy.dropMeta, hb, Res.bind_ok, Res.pure_eq], ?_, h.2⟩
    simp only [DTy.behind, DTy.chunkIds, blockHeld_bare hf.2 hf.1]
    exact h.1
theorem DFields.dropMeta_did : ∀ {fs : DFields}, fs.Finished → fs.chunkIds.Nodup → Did fs.dropMeta fs.behind fs.chunkIds
  | .nil, _, _ => ⟨[], rfl, by simp [DFields.behind, DFields.chunkIds], List.Pairwise.nil⟩
  | .cons _ t fs, hf, hn => by
    simp only [DFields.Finished] at hf; simp only [DFields.chunkIds, List.nodup_append] at hn
    obtain ⟨a, ha, pa, ua⟩ := DTy.dropMeta_did hf.1 hn.1
    obtain ⟨b, hb, pb, ub⟩ := DFields.dropMeta_did hf.2 hn.2.1
    have h := noUse_append pa ua pb ub (fun q hq hc => hn.2.2 _ hc _ (DFields.behind_region hq) rfl)
    exact ⟨a ++ b, by simp only [DFields.dropMeta, ha, hb, Res.bind_ok, Res.pure_eq],
      by simpa only [DFields.behind, DFields.chunkIds] using h.1, h.2⟩
end

mutual
theorem DTy.finished_expr : ∀ {t : DTy}, t.Finished → t.isExpr = false
  | .plain, _ => rfl
  | .owner, _ => rfl
  | .unfinished, _ => rfl
  | .adapt _, h => by simp [DTy.Finished] at h
  | .fixed _ _ t, hf => by simp only [DTy.Finished] at hf; simp only [DTy.isExpr]; exact DTy.finished_expr hf
  | .tuple fs, hf => by simp only [DTy.Finished] at hf; simp only [DTy.isExpr]; exact DFields.finished_expr hf
  | .option t, hf => by simp only [DTy.Finished] at hf; simp only [DTy.isExpr]; exact DTy.finished_expr hf
  | .var _ _ t, hf => by simp only [DTy.Finished] at hf; simp only [DTy.isExpr]; exact DTy.finished_expr hf
  | .pointer _ _ t, hf => rfl
theorem DFields.finished_expr : ∀ {fs : DFields}, fs.Finished → fs.isExpr = false
  | .nil, _ => rfl
  | .cons _ t fs, hf => by
    simp only [DFields.Finished] at hf
    simp only [DFields.isExpr, DTy.finished_expr hf.1, DFields.finished_expr hf.2]; rfl
end

/-! ## Theorems -/

/-- Destroying an array destroys every object in its data and in its memory blocks exactly once, frees every chunk
    exactly once, and never touches a chunk after freeing it.  Missing: callables, arrays, adapt types and pointers to
    types with a destructor (see the `_violated` theorems). -/
theorem destroy_exact_partial (t : DTy) (p : DPlace) (hf : t.Finished) (hn : (p.1 :: t.chunkIds).Nodup) :
    ∃ ev, destroyArray false t p = .ok ev ∧
      ev.Perm ((t.held p ++ t.behind).map .release ++ t.chunkIds.map .free) ∧ NoUseAfterFree ev := by
  rw [List.nodup_cons] at hn
  obtain ⟨b, hb, pb, ub⟩ := DTy.dropMeta_did hf hn.2
  cases h : t.dtor
  · refine ⟨b, by simp [destroyArray, h, hb], ?_, ub⟩
    rw [DTy.held_bare hf (DTy.dtor_bare.1 h)]
    exact pb
  · obtain ⟨a, ha, pa⟩ := DTy.destruct_held hf h p
    have := noUse_append (fa := []) (by simpa using pa) (releases_noUse pa) pb ub (by simp)
    exact ⟨a ++ b, by simp [destroyArray, h, DTy.finished_expr hf, ha, hb], by simpa using this.1, this.2⟩

/-- Destroying a view leaves the data alone. -/
theorem destroy_view (t : DTy) (p : DPlace) (hf : t.Finished) (hn : t.chunkIds.Nodup) :
    ∃ ev, destroyArray true t p = .ok ev ∧
      ev.Perm (t.behind.map .release ++ t.chunkIds.map .free) ∧ NoUseAfterFree ev := by
  obtain ⟨b, hb, pb, ub⟩ := DTy.dropMeta_did hf hn
  exact ⟨b, by simp [destroyArray, hb], pb, ub⟩

/-- Destroying an array of pointers to a type with a destructor, of callables or of arrays raises inside a destructor,
    even if there is nothing in it. -/
theorem destroy_unfinished_violated (p : DPlace) (chunks : List (Nat × Nat)) (s : Int) (n : Nat) (t : DTy) (ht : ¬ t.Bare) (hx : t.isExpr = false) :
    destroyArray false (.pointer chunks s t) p = .throw .runtime ∧
    (∀ ms, destroyArray false (.fixed n ms (.pointer chunks s t)) p = .throw .runtime) ∧
    destroyArray false .unfinished p = .throw .runtime := by
  have h : t.dtor = true := by
    cases h : t.dtor
    · exact absurd (DTy.dtor_bare.1 h) ht
    · rfl
  refine ⟨?_, ?_, ?_⟩ <;> simp [destroyArray, DTy.dtor, DTy.isExpr, h, DTy.destruct, DTy.destructStrided]

/-- An array of records in which one field is an adapt type is destroyed without releasing the other fields. -/
theorem destroy_expression_violated (p : DPlace) (o1 o2 : Int) (t : DTy) :
    destroyArray false (.tuple (.cons o1 .owner (.cons o2 (.adapt t) .nil))) p = .ok [] ∧
    (p.1, p.2 + o1) ∈ (DTy.tuple (.cons o1 .owner (.cons o2 (.adapt t) .nil))).held p := by
  simp [destroyArray, DTy.isExpr, DFields.isExpr, DTy.dropMeta, DFields.dropMeta, DTy.held, DFields.held]

/-- A view `a(i)` of a `var` array only keeps the memory block.  If the array is destroyed first, the destructor of
    the block reads the array's arrmeta after it is gone, unless the elements are plain strings, bytes or types. -/
theorem late_block_violated (s ms : Int) (n c : Nat) (k : Nat) (t : DTy) :
    destroyObjects false s (.fixed n ms t) [(c, k)] = .ub ∧
    (∀ off, k ≠ 0 → destroyObjects false s (.tuple (.cons off .owner .nil)) [(c, k)] = .ub) ∧
    ∃ ev, destroyObjects false s .owner [(c, k)] = .ok ev := by
  refine ⟨by simp [destroyObjects, DTy.destructStrided], ?_, ?_⟩
  · intro off hk
    cases k with
    | zero => exact absurd rfl hk
    | succ k => simp [destroyObjects, DTy.destructStrided, dChunks, DFields.destructStrided, DTy.dtor]
  · obtain ⟨ev, he, _⟩ := dLoop_held (f := fun p => .ok [.release p]) (g := fun p => [p]) (s := s) (fun p => ⟨_, rfl, by simp⟩) k (c, 0)
    exact ⟨ev ++ [.free c], by simp only [destroyObjects, DTy.destructStrided, he, Res.bind_ok, Res.pure_eq]; simp⟩

/-- `2 * {a : string, b : var * {c : ?string, d : int}}` with one element in use. -/
def exDestroy : DTy := .fixed 2 24 (.tuple (.cons 0 .owner (.cons 16 (.var [(1, 1)] 24 (.tuple (.cons 0 (.option .owner) (.cons 16 .plain .nil)))) .nil)))

example : exDestroy.Finished ∧ (0 :: exDestroy.chunkIds).Nodup ∧
    exDestroy.held (0, 0) = [(0, 0), (0, 24)] ∧ exDestroy.behind = [(1, 0)] ∧ exDestroy.chunkIds = [1] := by
  refine ⟨by simp [exDestroy, DTy.Finished, DFields.Finished], by decide, by decide, by decide, by decide⟩

example : ¬ (DTy.owner).Bare := by simp [DTy.Bare]

end Dynd
