/-
C117: assignment between two types: the conversion chosen, the kernels built.
-/
import Verif.Props.AssignTable

namespace Dynd

/-! ### Which overload is meant for a pair of concrete types -/

/-- The pairs of concrete types an overload of `nd::assign` is meant for. -/
def Handles : AEntry → Ty → Ty → Prop
  | .num d s, dst, src => dst = .prim d ∧ src = .prim s
  | .strStr, dst, src => dst = .leaf .string ∧ src = .leaf .string
  | .bytesBytes, dst, src => dst = .leaf (.bytes 1) ∧ src = .leaf (.bytes 1)
  | .fbFb, dst, src => (∃ n a, dst = .leaf (.fixedBytes n a)) ∧ ∃ n a, src = .leaf (.fixedBytes n a)
  | .fsFs, dst, src => (∃ n e, dst = .leaf (.fixedString n e)) ∧ ∃ n e, src = .leaf (.fixedString n e)
  | .charStr, dst, src => dst = .leaf (.char 4) ∧ src = .leaf .string
  | .strChar, dst, src => dst = .leaf .string ∧ src = .leaf (.char 4)
  | .typeType, dst, src => dst = .leaf .typeT ∧ src = .leaf .typeT
  | .fsInt32, dst, src => (∃ n e, dst = .leaf (.fixedString n e)) ∧ src = .prim (.int .w32)
  | .fsStr, dst, src => (∃ n e, dst = .leaf (.fixedString n e)) ∧ src = .leaf .string
  | .intStr w, dst, src => dst = .prim (.int w) ∧ (src = .leaf .string ∨ ∃ n e, src = .leaf (.fixedString n e))
  | .strFs, dst, src => dst = .leaf .string ∧ ∃ n e, src = .leaf (.fixedString n e)
  | .boolStr, dst, src => dst = .prim .bool ∧ src = .leaf .string
  | .optToVal, dst, src => ¬ IsDim dst ∧ ∃ s, src = .option s
  | .optOpt, dst, src => (∃ d, dst = .option d) ∧ ∃ s, src = .option s
  | .valOpt, _, src => ¬ IsDim src
  | .optStr, dst, src => (∃ d, dst = .option d) ∧ src = .leaf .string
  | .optFloat, dst, src => (∃ d, dst = .option d) ∧ ∃ f, src = .prim (.flt f)
  | .strType, dst, src => dst = .leaf .string ∧ src = .leaf .typeT
  | .typeStr, dst, src => dst = .leaf .typeT ∧ src = .leaf .string
  | .ptrPtr, dst, src => (∃ d, dst = .pointer d) ∧ ∃ s, src = .pointer s
  | .f32Str, dst, src => dst = .prim (.flt .f32) ∧ src = .leaf .string
  | .f64Str, dst, src => dst = .prim (.flt .f64) ∧ src = .leaf .string
  | .tupTup, dst, src => (∃ ts v, dst = .tuple ts v) ∧ ∃ ts v, src = .tuple ts v
  | .structStruct, dst, src => (∃ ns ts v, dst = .struct ns ts v) ∧ ∃ ns ts v, src = .struct ns ts v
  | .elwSD, dst, src => ¬ IsDim dst ∧ IsDim src
  | .elwDS, dst, src => IsDim dst ∧ ¬ IsDim src
  | .elwDD, dst, src => IsDim dst ∧ IsDim src
  | .user _ _, _, _ => False

/-- What the patterns of the table mean for a concrete type. -/
def pcIs : PC → Ty → Prop
  | .prim b, c => c = .prim b
  | .str, c => c = .leaf .string
  | .byt, c => c = .leaf (.bytes 1)
  | .fbK, c => ∃ n a, c = .leaf (.fixedBytes n a)
  | .fsK, c => ∃ n e, c = .leaf (.fixedString n e)
  | .chr, c => c = .leaf (.char 4)
  | .typ, c => c = .leaf .typeT
  | .strK, c => c = .leaf .string ∨ ∃ n e, c = .leaf (.fixedString n e)
  | .scal, c => ¬ IsDim c
  | .opt, c => ∃ t, c = .option t
  | .any, _ => True
  | .fltK, c => ∃ f, c = .prim (.flt f)
  | .ptr, c => ∃ t, c = .pointer t
  | .tup, c => ∃ ts v, c = .tuple ts v
  | .stru, c => ∃ ns ts v, c = .struct ns ts v
  | .dim, c => IsDim c

theorem handles_pcs {e : AEntry} (h : e.builtin = true) (d s : Ty) :
    Handles e d s ↔ pcIs e.pcs.1 d ∧ pcIs e.pcs.2 s := by
  cases e <;> first | exact Bool.noConfusion h | exact Iff.rfl | simp [Handles, pcIs, AEntry.pcs]

theorem pc_tablePat (p : PC) : TablePat p.ty := by cases p <;> constructor

theorem patMatch_is {p : PC} {c : Ty} (hc : Concrete c) (fl : Bool) : patMatch fl p.ty c = true ↔ pcIs p c := by
  cases p with
  | prim b => simp only [PC.ty, patMatch, pcIs, tyEq_iff]; exact eq_comm
  | str => simp only [PC.ty, patMatch, pcIs, tyEq_iff]; exact eq_comm
  | byt => simp only [PC.ty, patMatch, pcIs, tyEq_iff]; exact eq_comm
  | chr => simp only [PC.ty, patMatch, pcIs, tyEq_iff]; exact eq_comm
  | typ => simp only [PC.ty, patMatch, pcIs, tyEq_iff]; exact eq_comm
  | fbK => simp only [PC.ty, patMatch, pcIs]; exact matchKind_concrete hc
  | fsK => simp only [PC.ty, patMatch, pcIs]; exact matchKind_concrete hc
  | strK => simp only [PC.ty, patMatch, pcIs]; exact matchKind_concrete hc
  | scal => simp only [PC.ty, patMatch, pcIs]; exact concrete_isScalar hc
  | any => simp [PC.ty, patMatch, pcIs]
  | fltK =>
    simp only [PC.ty, patMatch, pcIs]
    have hn : tyEq (.kind .float) c = false := by
      cases h : tyEq (.kind .float) c with
      | false => rfl
      | true =>
        have := (tyEq_iff _ _).1 h
        subst this; exact hc.elim
    rw [hn, Bool.and_false, if_neg (by simp)]
    exact matchKind_concrete (k := .float) hc
  | opt => cases c <;> simp [PC.ty, patMatch, pcIs]
  | ptr => cases c <;> simp [PC.ty, patMatch, pcIs]
  | tup => cases c <;> simp [PC.ty, patMatch, pcIs]
  | stru => cases c <;> simp [PC.ty, patMatch, pcIs]
  | dim =>
    by_cases hd : IsDim c
    · have hp : pcIs .dim c := hd
      simp only [hp, iff_true]
      cases c <;> first | exact hd.elim | rfl | (simp [PC.ty, patMatch, Ty.ndim, Ty.atDim])
    · have hp : ¬ pcIs .dim c := hd
      simp only [hp, iff_false, Bool.not_eq_true]
      have hn := (concrete_ndim hc).2 hd
      cases c <;> first | exact hc.elim | (simp only [PC.ty, patMatch, if_pos hn])

theorem handles_iff (same : List Nat → Bool) {e : AEntry} (he : e.builtin = true) {d s : Ty} (hd : Concrete d)
    (hs : Concrete s) : supercedes (tyMatch same) [d, s] e.sig = true ↔ Handles e d s := by
  rw [handles_pcs he, sig_pcs he]
  simp only [supercedes, tyMatch_pat same (pc_tablePat _), Bool.and_eq_true, patMatch_is hd, patMatch_is hs, and_true]

/-! ### No two overloads are meant for the same pair -/

/-- Is there a concrete type both patterns mean? -/
def pcMeet : PC → PC → Bool
  | .any, _ | _, .any => true
  | .scal, .dim | .dim, .scal => false
  | .scal, _ | _, .scal => true
  | .prim b, .prim c => decide (b = c)
  | .fltK, .prim (.flt _) | .prim (.flt _), .fltK | .fltK, .fltK => true
  | .strK, .str | .strK, .fsK | .strK, .strK | .str, .strK | .fsK, .strK => true
  | .str, .str | .byt, .byt | .fbK, .fbK | .fsK, .fsK | .chr, .chr | .typ, .typ | .opt, .opt | .ptr, .ptr
  | .tup, .tup | .stru, .stru | .dim, .dim => true
  | _, _ => false

theorem pcIs_meet {p q : PC} {c : Ty} (hp : pcIs p c) (hq : pcIs q c) : pcMeet p q = true := by
  cases p
  case any => rfl
  case scal => cases q <;> first | rfl | exact absurd hq hp
  case dim =>
    cases c <;> first | exact False.elim hp | (cases q <;> first | rfl | simp [pcIs, IsDim] at hq)
  case strK =>
    rcases hp with rfl | ⟨n, e, rfl⟩ <;> cases q <;> first | rfl | simp [pcIs, IsDim] at hq
  case prim b =>
    cases hp
    cases q <;> first | rfl | (simp [pcIs, IsDim] at hq; done) | skip
    · simp only [pcIs, Ty.prim.injEq] at hq; simp [pcMeet, hq]
    · simp only [pcIs, Ty.prim.injEq] at hq; obtain ⟨f, rfl⟩ := hq; rfl
  case fltK =>
    obtain ⟨f, rfl⟩ := hp
    cases q <;> first | rfl | (simp [pcIs, IsDim] at hq; done) | skip
    simp only [pcIs, Ty.prim.injEq] at hq; subst hq; rfl
  case str => cases hp; cases q <;> first | rfl | simp [pcIs, IsDim] at hq
  case byt => cases hp; cases q <;> first | rfl | simp [pcIs, IsDim] at hq
  case chr => cases hp; cases q <;> first | rfl | simp [pcIs, IsDim] at hq
  case typ => cases hp; cases q <;> first | rfl | simp [pcIs, IsDim] at hq
  case fbK => obtain ⟨_, _, rfl⟩ := hp; cases q <;> first | rfl | simp [pcIs, IsDim] at hq
  case fsK => obtain ⟨_, _, rfl⟩ := hp; cases q <;> first | rfl | simp [pcIs, IsDim] at hq
  case opt => obtain ⟨_, rfl⟩ := hp; cases q <;> first | rfl | simp [pcIs, IsDim] at hq
  case ptr => obtain ⟨_, rfl⟩ := hp; cases q <;> first | rfl | simp [pcIs, IsDim] at hq
  case tup => obtain ⟨_, _, rfl⟩ := hp; cases q <;> first | rfl | simp [pcIs, IsDim] at hq
  case stru => obtain ⟨_, _, _, rfl⟩ := hp; cases q <;> first | rfl | simp [pcIs, IsDim] at hq

theorem meet_same {u v : AEntry} (hu : u.builtin = true) (hv : v.builtin = true)
    (nu : u.isValOpt = false) (nv : v.isValOpt = false)
    (h1 : pcMeet u.pcs.1 v.pcs.1 = true) (h2 : pcMeet u.pcs.2 v.pcs.2 = true) :
    u = v ∨ (u = .optOpt ∧ v = .optToVal) ∨ (u = .optToVal ∧ v = .optOpt) := by
  cases u
  case num d s =>
    cases v <;> first | exact Bool.noConfusion h1 | exact Bool.noConfusion h2 |
      simp_all [AEntry.pcs, pcMeet, AEntry.builtin, AEntry.isValOpt]
  case intStr w =>
    cases v <;> first | exact Bool.noConfusion h1 | exact Bool.noConfusion h2 |
      simp_all [AEntry.pcs, pcMeet, AEntry.builtin, AEntry.isValOpt]
  case user => exact Bool.noConfusion hu
  case valOpt => exact Bool.noConfusion nu
  all_goals cases v <;> first | exact Or.inl rfl | exact Bool.noConfusion h1 | exact Bool.noConfusion h2 |
      exact Bool.noConfusion nv | exact Bool.noConfusion hv | exact Or.inr (Or.inl ⟨rfl, rfl⟩) |
      exact Or.inr (Or.inr ⟨rfl, rfl⟩) | simp [AEntry.pcs, pcMeet] at h1 h2

/-- Apart from the fallback `Any <- Scalar`, and an option into an option, at most one overload is meant for a pair
    of types. -/
theorem handles_unique {u v : AEntry} {d s : Ty} (hu : Handles u d s) (hv : Handles v d s)
    (bu : u.builtin = true) (bv : v.builtin = true) (nu : u.isValOpt = false) (nv : v.isValOpt = false) :
    u = v ∨ (u = .optOpt ∧ v = .optToVal) ∨ (u = .optToVal ∧ v = .optOpt) := by
  rw [handles_pcs bu] at hu
  rw [handles_pcs bv] at hv
  exact meet_same bu bv nu nv (pcIs_meet hu.1 hv.1) (pcIs_meet hu.2 hv.2)

/-! ### The choice -/

theorem dispCall_skip {T F : Type} {m : T → T → Bool} {sig : F → List T} {args : List T} (a b : List F)
    (h : ∀ x ∈ a, supercedes m args (sig x) = false) :
    dispCall m sig args ((a ++ b).map some) = dispCall m sig args (b.map some) := by
  induction a with
  | nil => rfl
  | cons x a ih =>
    simp only [List.cons_append, List.map_cons, dispCall]
    rw [h x (by simp)]
    simpa using ih (fun y hy => h y (by simp [hy]))

theorem dispCall_some {T F : Type} {m : T → T → Bool} {sig : F → List T} {args : List T} (a b : List F)
    (h : ∃ x ∈ a, supercedes m args (sig x) = true) :
    ∃ x ∈ a, supercedes m args (sig x) = true ∧ dispCall m sig args ((a ++ b).map some) = .ok x := by
  induction a with
  | nil => obtain ⟨x, hx, _⟩ := h; simp at hx
  | cons x a ih =>
    simp only [List.cons_append, List.map_cons, dispCall]
    by_cases hx : supercedes m args (sig x) = true
    · exact ⟨x, by simp, hx, by rw [if_pos hx]⟩
    · obtain ⟨y, hy, hy'⟩ := h
      rcases List.mem_cons.1 hy with rfl | hy
      · exact absurd hy' hx
      · obtain ⟨z, hz, hz', e⟩ := ih ⟨y, hy, hy'⟩
        exact ⟨z, by simp [hz], hz', by rw [if_neg hx]; exact e⟩

theorem table_builtin : ∀ e ∈ assignTable, e.builtin = true := by
  have : assignTable.all AEntry.builtin = true := by decide +kernel
  exact fun e he => List.all_eq_true.1 this e he

/-- all but the last overload -/
def tableInit : List AEntry := assignTable.dropLast

theorem table_split : assignTable = tableInit ++ [.valOpt] := by
  set_option maxRecDepth 100000 in rfl

theorem init_specific : ∀ e ∈ tableInit, e.isValOpt = false := by
  have : tableInit.all (fun e => !e.isValOpt) = true := by decide +kernel
  intro e he
  simpa using List.all_eq_true.1 this e he

/-- The overload chosen for a pair of concrete types: the one meant for it.  For an option into an option that is
    `optOpt`, and the fallback `valOpt` is chosen only if no other overload is meant for the pair. -/
theorem assign_choice (same : List Nat → Bool) {e : AEntry} (he : e ∈ assignTable) {d s : Ty} (hd : Concrete d)
    (hs : Concrete s) (hh : Handles e d s) (h1 : e = .optToVal → ∀ t, d ≠ .option t)
    (h2 : e = .valOpt → ∀ e' ∈ assignTable, Handles e' d s → e' = .valOpt) :
    dispCall (tyMatch same) AEntry.sig [d, s] (assignTable.map some) = .ok e := by
  have hiff : ∀ x ∈ assignTable, (supercedes (tyMatch same) [d, s] x.sig = true ↔ Handles x d s) :=
    fun x hx => handles_iff same (table_builtin x hx) hd hs
  have hsub : ∀ x ∈ tableInit, x ∈ assignTable := fun x hx => by rw [table_split]; simp [hx]
  by_cases hv : e = .valOpt
  · subst hv
    rw [table_split, dispCall_skip]
    · simp only [List.map_cons, List.map_nil, dispCall]
      rw [if_pos ((hiff _ he).2 hh)]
    · intro x hx
      cases hc : supercedes (tyMatch same) [d, s] x.sig with
      | false => rfl
      | true =>
        have := h2 rfl x (hsub x hx) ((hiff x (hsub x hx)).1 hc)
        have := init_specific x hx
        subst_vars
        exact Bool.noConfusion this
  · have hei : e ∈ tableInit := by
      rw [table_split] at he
      simpa [hv] using he
    have hee := (hiff e he).2 hh
    by_cases ho : e = .optOpt
    · subst ho
      have hsplit : assignTable = [.elwDD, .elwDS, .elwSD, .tupTup, .f32Str, .intStr .w32, .intStr .w8, .typeStr,
          .optFloat] ++ .optOpt :: assignTable.drop 10 := by
        set_option maxRecDepth 100000 in rfl
      rw [hsplit, dispCall_skip]
      · simp only [List.map_cons, dispCall]
        rw [if_pos hee]
      · intro x hx
        have hxt : x ∈ assignTable := by rw [hsplit]; simp only [List.mem_append]; exact Or.inl hx
        cases hc : supercedes (tyMatch same) [d, s] x.sig with
        | false => rfl
        | true =>
          exfalso
          have hxv : x.isValOpt = false := by
            simp only [List.mem_cons, List.not_mem_nil, or_false] at hx
            rcases hx with rfl | rfl | rfl | rfl | rfl | rfl | rfl | rfl | rfl <;> rfl
          rcases handles_unique ((hiff x hxt).1 hc) hh (table_builtin x hxt) rfl hxv rfl with h | h | h
          · subst h; simp at hx
          · simp at h
          · obtain ⟨h, _⟩ := h; subst h; simp at hx
    · rw [table_split]
      obtain ⟨x, hx, hx', ex⟩ := dispCall_some (m := tyMatch same) (sig := AEntry.sig) (args := [d, s]) tableInit
        [.valOpt] ⟨e, hei, hee⟩
      rw [ex]
      have hxh := (hiff x (hsub x hx)).1 hx'
      rcases handles_unique hxh hh (table_builtin x (hsub x hx)) (table_builtin e he) (init_specific x hx)
        (init_specific e hei) with h | h | h
      · rw [h]
      · obtain ⟨rfl, rfl⟩ := h
        obtain ⟨⟨t, ht⟩, _⟩ := hxh
        exact absurd ht (h1 rfl t)
      · exact absurd h.2 ho

/-! ### What a kernel has to look like -/

/-- is it a `var` dimension? -/
def isVarDim : Ty → Bool
  | .varDim _ => true
  | _ => false

/-- A dimension of a destination or source: its size (`none` for `var`) and the type of its elements. -/
inductive DimOf : Ty → Option Int → Ty → Prop
  | fixed (n : Int) (el : Ty) : DimOf (.fixedDim n el) (some n) el
  | var (el : Ty) : DimOf (.varDim el) none el

/-- The error mode a call works under: the default one does not check. -/
def specMode (m : AMode) : AMode := if m = .default then .nocheck else m

theorem effMode_spec (m : AMode) : effMode m = specMode m := by cases m <;> rfl

/-- `Right m k d s`: the tree of kernels `k` assigns a value of type `s` to a value of type `d`, under the error mode
    `m`: a number is cast between exactly these two types, a string is parsed as the destination, a missing value is
    detected with the test for the source type and stored with the value for the destination type, a field comes
    from the source field of its position (tuples) or name (structs), and an array is run along its first
    dimension with a kernel for its elements. -/
inductive Right (m : AMode) : KTree → Ty → Ty → Prop
  | num (d s : BTy) : Right m (.mk (.cast d s (specMode m)) []) (.prim d) (.prim s)
  | string : Right m (.mk (.copyString (specMode m)) []) (.leaf .string) (.leaf .string)
  | bytes : Right m (.mk (.copyBytes (specMode m)) []) (.leaf (.bytes 1)) (.leaf (.bytes 1))
  | type : Right m (.mk (.copyType (specMode m)) []) (.leaf .typeT) (.leaf .typeT)
  | fsFs (n e n' e' : Nat) : Right m (.mk (.fsFromFs true m) []) (.leaf (.fixedString n e)) (.leaf (.fixedString n' e'))
  | fsStr (n e : Nat) : Right m (.mk (.fsFromStr m) []) (.leaf (.fixedString n e)) (.leaf .string)
  | strFs (n e : Nat) : Right m (.mk (.strFromFs m) []) (.leaf .string) (.leaf (.fixedString n e))
  | charStr : Right m (.mk (.charFromStr m) []) (.leaf (.char 4)) (.leaf .string)
  | strChar : Right m (.mk (.strFromChar m) []) (.leaf .string) (.leaf (.char 4))
  | intStr (w : Wd) : Right m (.mk (.parseInt w m) []) (.prim (.int w)) (.leaf .string)
  | intFs (w : Wd) (n e : Nat) : Right m (.mk (.parseInt w m) []) (.prim (.int w)) (.leaf (.fixedString n e))
  | boolStr : Right m (.mk (.parseBool true (specMode m)) []) (.prim .bool) (.leaf .string)
  | f32Str : Right m (.mk (.parseF32 true m) []) (.prim (.flt .f32)) (.leaf .string)
  | f64Str : Right m (.mk (.parseF64 m) []) (.prim (.flt .f64)) (.leaf .string)
  | typeStr : Right m (.mk .typeFromStr []) (.leaf .typeT) (.leaf .string)
  | strType : Right m (.mk .strFromType []) (.leaf .string) (.leaf .typeT)
  | optBoolStr : Right m (.mk .optBoolFromStr []) (.option (.prim .bool)) (.leaf .string)
  | optNumStr (b : BTy) : Right m (.mk (.optNumFromStr b) []) (.option (.prim b)) (.leaf .string)
  | optOpt (d s : Ty) (k : KTree) : Right m k d s →
      Right m (.mk .optCopy [.mk (.isNa s) [], .mk (.assignNa d) [], k]) (.option d) (.option s)
  | optFloat (d : Ty) (f : FW) (k : KTree) : Right m k d (.prim (.flt f)) →
      Right m (.mk .optCopy [.mk (.isNa (.prim (.flt f))) [], .mk (.assignNa d) [], k]) (.option d) (.prim (.flt f))
  | optVal (d s : Ty) (k : KTree) : (∀ x, s ≠ .option x) → (∀ f, s ≠ .prim (.flt f)) → s ≠ .leaf .string →
      Right m k d s → Right m k (.option d) s
  | valOpt (d s : Ty) (k : KTree) : (∀ x, d ≠ .option x) → Right m k d s →
      Right m (.mk .optCheck [.mk (.isNa s) [], k]) d (.option s)
  | tuple (ds ss : List Ty) (ks : List KTree) : ds.length = ss.length → ks.length = ds.length →
      (∀ (i : Nat) k d s, ks[i]? = some k → ds[i]? = some d → ss[i]? = some s → Right m k d s) →
      Right m (.mk (.record (List.range ds.length)) ks) (.tuple ds false) (.tuple ss false)
  | struct (dn sn : List String) (ds ss : List Ty) (perm : List Nat) (ks : List KTree) :
      ks.length = ds.length → perm.length = ds.length →
      (∀ (i j : Nat), perm[i]? = some j → ∃ n, dn[i]? = some n ∧ sn[j]? = some n) →
      (∀ (i j : Nat) k d s, ks[i]? = some k → ds[i]? = some d → perm[i]? = some j → ss[j]? = some s → Right m k d s) →
      Right m (.mk (.record perm) ks) (.struct dn ds false) (.struct sn ss false)
  | dims (d s de se : Ty) (n n' : Option Int) (k : KTree) : DimOf d n de → DimOf s n' se → s.ndim = d.ndim →
      Right m k de se → Right m (.mk (.elw n.isNone n'.isNone (n' == some 1)) [k]) d s
  | bcast (d s de : Ty) (n : Option Int) (k : KTree) : DimOf d n de → s.ndim < d.ndim →
      Right m k de s → Right m (.mk (.elw n.isNone (isVarDim s) true) [k]) d s

/-- the value types of options with a representation of the missing value -/
def HasNa (t : Ty) : Prop :=
  t ∈ [Ty.prim .bool, .prim (.int .w8), .prim (.int .w16), .prim (.int .w32), .prim (.int .w64), .prim (.int .w128),
    .prim (.uint .w32), .prim (.flt .f32), .prim (.flt .f64), .prim (.cplx .c32), .prim (.cplx .c64), .prim .void,
    .leaf (.bytes 1), .leaf .string]

/-- the numbers `nd::assign` converts -/
def IsNum (b : BTy) : Prop := b ≠ .void ∧ b ≠ .flt .f16 ∧ b ≠ .flt .f128

/-- sizes that can be assigned: the same one, a single element, or not known before run time -/
def SizesFit : Option Int → Option Int → Prop
  | some n, some n' => n' = n ∨ n' = 1
  | _, _ => True

/-- `Works live tail d s`: pairs of types `nd::assign` handles.  `live`: the source type is still there when the
    kernels are built (false below an array, a struct field or a value for an option); `tail`: nothing is built after
    this kernel. -/
inductive Works : Bool → Bool → Ty → Ty → Prop
  | num (l t : Bool) (d s : BTy) : IsNum d → IsNum s → Works l t (.prim d) (.prim s)
  | string (l t : Bool) : Works l t (.leaf .string) (.leaf .string)
  | bytes (l t : Bool) : Works l t (.leaf (.bytes 1)) (.leaf (.bytes 1))
  | type (l t : Bool) : Works l t (.leaf .typeT) (.leaf .typeT)
  | fsFs (t : Bool) (n e n' e' : Nat) : Works true t (.leaf (.fixedString n e)) (.leaf (.fixedString n' e'))
  | fsStr (l t : Bool) (n e : Nat) : Works l t (.leaf (.fixedString n e)) (.leaf .string)
  | strFs (l t : Bool) (n e : Nat) : Works l t (.leaf .string) (.leaf (.fixedString n e))
  | charStr (l t : Bool) : Works l t (.leaf (.char 4)) (.leaf .string)
  | strChar (l t : Bool) : Works l t (.leaf .string) (.leaf (.char 4))
  | intStr (l t : Bool) (w : Wd) : w ≠ .w128 → Works l t (.prim (.int w)) (.leaf .string)
  | intFs (l t : Bool) (w : Wd) (n e : Nat) : w ≠ .w128 → Works l t (.prim (.int w)) (.leaf (.fixedString n e))
  | boolStr (t : Bool) : Works true t (.prim .bool) (.leaf .string)
  | f32Str (t : Bool) : Works true t (.prim (.flt .f32)) (.leaf .string)
  | f64Str (l t : Bool) : Works l t (.prim (.flt .f64)) (.leaf .string)
  | typeStr (l t : Bool) : Works l t (.leaf .typeT) (.leaf .string)
  | strType (l t : Bool) : Works l t (.leaf .string) (.leaf .typeT)
  | optNumStr (l : Bool) (b : BTy) :
      b ∈ [BTy.bool, .int .w8, .int .w16, .int .w32, .int .w64, .flt .f32, .flt .f64] →
      Works l true (.option (.prim b)) (.leaf .string)
  | optOpt (l t : Bool) (d s : Ty) : HasNa d → HasNa s → Works true t d s → Works l t (.option d) (.option s)
  | optFloat (l t : Bool) (d : Ty) (f : FW) : HasNa d → f = .f32 ∨ f = .f64 → Works false t d (.prim (.flt f)) →
      Works l t (.option d) (.prim (.flt f))
  | optVal (l t : Bool) (d s : Ty) : (∀ x, s ≠ .option x) → (∀ f, s ≠ .prim (.flt f)) → s ≠ .leaf .string → ¬ IsDim s →
      Works false t d s → Works l t (.option d) s
  | valOpt (l t : Bool) (d s : Ty) : (∀ x, d ≠ .option x) → ¬ IsDim d → HasNa s → Works true t d s →
      Works l t d (.option s)
  | tuple (l t : Bool) (ds ss : List Ty) : ds.length = ss.length → ds.length ≤ 8 →
      (∀ (i : Nat) d s, ds[i]? = some d → ss[i]? = some s → Works true (t && decide (i + 1 = ds.length)) d s) →
      Works l t (.tuple ds false) (.tuple ss false)
  | struct (l t : Bool) (dn sn : List String) (ds ss : List Ty) : ds.length = ss.length → ds.length ≤ 8 →
      dn.length = ds.length → sn.length = ss.length → sn.Nodup → (∀ n ∈ dn, n ∈ sn) →
      (∀ (i j : Nat) n d s, dn[i]? = some n → sn[j]? = some n → ds[i]? = some d → ss[j]? = some s →
        Works false (t && decide (i + 1 = ds.length)) d s) →
      Works l t (.struct dn ds false) (.struct sn ss false)
  | dims (l t : Bool) (d s de se : Ty) (n n' : Option Int) : DimOf d n de → DimOf s n' se → s.ndim = d.ndim →
      SizesFit n n' → Works false t de se → Works l t d s
  | bcast (l t : Bool) (d s de : Ty) (n : Option Int) : DimOf d n de → s.ndim < d.ndim → Works false t de s →
      Works l t d s

/-! ### Building the kernels -/

/-- The outcome for a pair of types with the overloads of the library: nodes and a kernel tree that is right, from some
    depth of the stack on. -/
def Builds (same : List Nat → Bool) (kw : AKwds) (m : AMode) (l t : Bool) (d s : Ty) : Prop :=
  ∃ F ns k, Right m k d s ∧ (∀ f, F ≤ f → resolveA same (assignTable.map some) kw f l d s = .ok ns) ∧
    (IsDim d → ∀ f, F ≤ f → resolveDims (resolveA same (assignTable.map some) kw f false) d.ndim d s = .ok ns) ∧
    ∀ rest, ∃ rest', (t = false → rest' = rest) ∧ ∀ g, F ≤ g → instA g (ns ++ rest) = .ok (k, rest')

/-- A closure that does not emplace a kernel. -/
def ANode.isForward : ANode → Bool
  | .forward => true
  | _ => false

theorem inst_leaf {n : ANode} (ha : n.alive = true) (h0 : n.arity = 0) (hf : n.isForward = false) (g : Nat)
    (rest : List ANode) : instA (g + 1) (n :: rest) = .ok (.mk n [], rest) := by
  rw [instA, if_pos ha]
  · cases n <;> first | exact Bool.noConfusion hf | (rw [h0]; rfl)
  · intro h; subst h; exact Bool.noConfusion hf

theorem inst_node {n : ANode} (ha : n.alive = true) (hf : n.isForward = false) {g : Nat} {rest rest' : List ANode}
    {ks : List KTree} (hk : instKids (instA g) n.arity rest = .ok (ks, rest')) :
    instA (g + 1) (n :: rest) = .ok (.mk n ks, rest') := by
  rw [instA, if_pos ha]
  · cases n <;> first | exact Bool.noConfusion hf | (rw [hk]; rfl)
  · intro h; subst h; exact Bool.noConfusion hf

theorem kids_leaf {n : ANode} (ha : n.alive = true) (h0 : n.arity = 0) (hf : n.isForward = false) {g c : Nat}
    {rest rest' : List ANode} {ks : List KTree} (h : instKids (instA (g + 1)) c rest = .ok (ks, rest')) :
    instKids (instA (g + 1)) (c + 1) (n :: rest) = .ok (.mk n [] :: ks, rest') := by
  simp only [instKids]
  rw [inst_leaf ha h0 hf, Res.bind_ok]
  simp only []
  rw [h]; rfl

theorem kids_last {f : List ANode → Res (KTree × List ANode)} {ns rest' : List ANode} {k : KTree}
    (h : f ns = .ok (k, rest')) : instKids f 1 ns = .ok ([k], rest') := by
  simp only [instKids]
  rw [h]; rfl

theorem builds_leaf {same : List Nat → Bool} {kw : AKwds} {m : AMode} {l t : Bool} {d s : Ty} {n : ANode}
    (hd : ¬ IsDim d) (ha : n.alive = true) (h0 : n.arity = 0) (hf : n.isForward = false) (hr : Right m (.mk n []) d s)
    (he : ∀ f, resolveA same (assignTable.map some) kw (f + 1) l d s = .ok [n]) : Builds same kw m l t d s := by
  refine ⟨1, [n], .mk n [], hr, ?_, fun h => absurd h hd, fun rest => ⟨rest, fun _ => rfl, ?_⟩⟩
  · intro f hf
    obtain ⟨f, rfl⟩ : ∃ k, f = k + 1 := ⟨f - 1, by omega⟩
    exact he f
  · intro g hg
    obtain ⟨g, rfl⟩ : ∃ k, g = k + 1 := ⟨g - 1, by omega⟩
    exact inst_leaf ha h0 hf g rest

theorem hasNa_any {t : Ty} (h : HasNa t) : naTypes.any (tyEq t) = true :=
  List.any_eq_true.2 ⟨t, h, tyEq_refl t⟩

theorem isNa_ok {t : Ty} (h : HasNa t) : resolveIsNa t = .ok [.isNa t] := by
  rw [resolveIsNa, if_pos (hasNa_any h)]

theorem assignNa_ok {t : Ty} (h : HasNa t) : resolveAssignNa t = .ok [.assignNa t] := by
  rw [resolveAssignNa, if_pos (hasNa_any h)]

theorem isNum_mem {b : BTy} (h : IsNum b) : b ∈ numericTypes := by
  obtain ⟨h1, h2, h3⟩ := h
  cases b with
  | void => exact absurd rfl h1
  | bool => decide
  | int w => cases w <;> decide
  | uint w => cases w <;> decide
  | flt f => cases f <;> first | exact absurd rfl h2 | exact absurd rfl h3 | decide
  | cplx c => cases c <;> decide

theorem num_mem {d s : BTy} (hd : IsNum d) (hs : IsNum s) : AEntry.num d s ∈ assignTable := by
  unfold assignTable numericPairs
  simp only [List.mem_append, List.mem_flatMap, List.mem_map]
  exact Or.inl (Or.inr ⟨d, isNum_mem hd, s, isNum_mem hs, rfl⟩)

theorem small_mem {e : AEntry} (h : e ∈ assignTable.filter (fun e => match e with | .num _ _ => false | _ => true)) :
    e ∈ assignTable := (List.mem_filter.1 h).1

theorem nonNum : assignTable.filter (fun e => match e with | .num _ _ => false | _ => true) =
    [.elwDD, .elwDS, .elwSD, .tupTup, .f32Str, .intStr .w32, .intStr .w8, .typeStr, .optFloat, .optOpt, .optToVal,
     .strFs, .intStr .w32, .fsFs, .typeType, .fsFs, .fsFs, .fbFb, .strStr,
     .bytesBytes, .fsFs, .charStr, .strChar, .fsInt32, .fsStr, .strStr, .boolStr, .optStr, .strType, .ptrPtr,
     .intStr .w16, .intStr .w64, .f64Str, .structStruct, .valOpt] := by
  set_option maxRecDepth 100000 in rfl

theorem tbl_mem {e : AEntry} (h : e ∈ [AEntry.elwDD, .elwDS, .elwSD, .tupTup, .f32Str, .intStr .w32, .intStr .w8, .typeStr,
     .optFloat, .optOpt, .optToVal,
     .strFs, .intStr .w32, .fsFs, .typeType, .fsFs, .fsFs, .fbFb, .strStr,
     .bytesBytes, .fsFs, .charStr, .strChar, .fsInt32, .fsStr, .strStr, .boolStr, .optStr, .strType, .ptrPtr,
     .intStr .w16, .intStr .w64, .f64Str, .structStruct, .valOpt]) : e ∈ assignTable := by
  rw [← nonNum] at h; exact small_mem h

/-- the fields of a tuple or struct, one after the other -/
theorem builds_fields {same : List Nat → Bool} {kw : AKwds} {m : AMode} {l t : Bool} : ∀ (ds ss : List Ty),
    ds.length = ss.length →
    (∀ (i : Nat) d s, ds[i]? = some d → ss[i]? = some s → Builds same kw m l (t && decide (i + 1 = ds.length)) d s) →
    ∃ F ns ks, ks.length = ds.length ∧
      (∀ (i : Nat) k d s, ks[i]? = some k → ds[i]? = some d → ss[i]? = some s → Right m k d s) ∧
      (∀ f, F ≤ f → resolveFields (resolveA same (assignTable.map some) kw f l) ds ss = .ok ns) ∧
      ∀ rest, ∃ rest', (t = false → rest' = rest) ∧
        ∀ g, F ≤ g → instKids (instA g) ds.length (ns ++ rest) = .ok (ks, rest')
  | [], ss, _, _ => ⟨0, [], [], rfl, by simp, fun _ _ => rfl, fun rest => ⟨rest, fun _ => rfl, fun _ _ => rfl⟩⟩
  | d :: ds, [], h, _ => by simp at h
  | d :: ds, s :: ss, h, hq => by
    obtain ⟨F1, n1, k1, hr1, he1, _, hi1⟩ := hq 0 d s rfl rfl
    obtain ⟨F2, n2, k2, hl2, hr2, he2, hi2⟩ := builds_fields ds ss (by simpa using h) (l := l) (t := t) (m := m)
      (same := same) (kw := kw) (fun i d' s' hd hs => by
        have := hq (i + 1) d' s' (by simpa using hd) (by simpa using hs)
        have e : decide (i + 1 + 1 = (d :: ds).length) = decide (i + 1 = ds.length) := by simp
        rw [e] at this; exact this)
    refine ⟨max F1 F2, n1 ++ n2, k1 :: k2, by simp [hl2], ?_, ?_, ?_⟩
    · intro i k d' s' hk hd hs
      cases i with
      | zero => simp at hk hd hs; subst hk hd hs; exact hr1
      | succ i => exact hr2 i k d' s' (by simpa using hk) (by simpa using hd) (by simpa using hs)
    · intro f hf
      simp only [resolveFields]
      rw [he1 f (by omega), Res.bind_ok, he2 f (by omega), Res.bind_ok]; rfl
    · intro rest
      obtain ⟨r2, h2, g2⟩ := hi2 rest
      obtain ⟨r1, h1, g1⟩ := hi1 (n2 ++ rest)
      by_cases hds : ds = []
      · subst hds
        have hk2 : k2 = [] := List.length_eq_zero_iff.1 (by simpa using hl2)
        have hn2 : n2 = [] := by
          have := he2 F2 (Nat.le_refl _)
          simp only [resolveFields, Res.ok.injEq] at this
          exact this.symm
        subst hk2 hn2
        refine ⟨r1, fun ht => ?_, fun g hg => ?_⟩
        · have := h1 (by simp [ht]); simpa using this
        · rw [List.nil_append] at g1
          simp only [List.length_cons, List.length_nil, instKids, List.append_nil]
          rw [g1 g (by omega)]; rfl
      · have hr1 : r1 = n2 ++ rest := h1 (by
          have : ds.length ≠ 0 := fun h => hds (List.length_eq_zero_iff.1 h)
          simp; intro _; omega)
        refine ⟨r2, h2, fun g hg => ?_⟩
        simp only [List.length_cons, instKids, List.append_assoc]
        rw [g1 g (by omega), Res.bind_ok, hr1]
        simp only []
        rw [g2 g (by omega)]; rfl

theorem fieldIndex_ok {n : String} : ∀ (l : List String) (j : Nat), l.Nodup → l[j]? = some n → fieldIndex n l = some j
  | [], j, _, h => by simp at h
  | a :: l, 0, _, h => by simp at h; simp [fieldIndex, h]
  | a :: l, j + 1, hn, h => by
    simp only [List.nodup_cons] at hn
    simp only [List.getElem?_cons_succ] at h
    have : a ≠ n := fun e => hn.1 (e ▸ List.mem_of_getElem? h)
    simp [fieldIndex, this, fieldIndex_ok l j hn.2 h]

/-- "Match up the fields" finds for each destination field the source field of the same name. -/
theorem matchStruct_ok {sn : List String} {ss : List Ty} (hn : sn.Nodup) (hl : sn.length = ss.length) :
    ∀ (dn : List String) (i : Nat), i + dn.length ≤ 8 → (∀ n ∈ dn, n ∈ sn) →
    ∃ fs, matchStruct sn ss i dn = .ok fs ∧ fs.length = dn.length ∧
      ∀ (x j : Nat) (u : Ty), fs[x]? = some (j, u) → ∃ n, dn[x]? = some n ∧ sn[j]? = some n ∧ ss[j]? = some u
  | [], _, _, _ => ⟨[], rfl, rfl, by simp⟩
  | n :: dn, i, hi, h => by
    simp only [List.length_cons] at hi
    obtain ⟨j, hj⟩ := List.mem_iff_getElem?.1 (h n (by simp))
    have hjl : j < ss.length := by have := (List.getElem?_eq_some_iff.1 hj).1; omega
    obtain ⟨fs, e, hfl, hf⟩ := matchStruct_ok hn hl dn (i + 1) (by omega) (fun n hn => h n (by simp [hn]))
    refine ⟨(j, ss[j]) :: fs, ?_, by simp [hfl], ?_⟩
    · simp only [matchStruct]
      rw [fieldIndex_ok sn j hn hj]
      simp only []
      rw [if_neg (by omega), List.getElem?_eq_getElem hjl]
      simp only []
      rw [e, Res.bind_ok]; rfl
    · intro x j' u hx
      cases x with
      | zero =>
        simp only [List.getElem?_cons_zero, Option.some.injEq, Prod.mk.injEq] at hx
        obtain ⟨rfl, rfl⟩ := hx
        exact ⟨n, rfl, hj, List.getElem?_eq_getElem hjl⟩
      | succ x => exact hf x j' u (by simpa using hx)

theorem concreteAll_get {ts : List Ty} (h : ConcreteAll ts) {i : Nat} {t : Ty} (hi : ts[i]? = some t) : Concrete t :=
  (concreteAll_iff ts).1 h t (List.mem_of_getElem? hi)

theorem not_dim_ndim {c : Ty} (hc : Concrete c) (h : ¬ IsDim c) : c.ndim = 0 := (concrete_ndim hc).2 h

theorem dimOf_isDim {d : Ty} {n : Option Int} {e : Ty} (h : DimOf d n e) : IsDim d := by cases h <;> trivial

theorem dimOf_ndim {d : Ty} {n : Option Int} {e : Ty} (h : DimOf d n e) : d.ndim = e.ndim + 1 := by cases h <;> rfl

theorem dimOf_concrete {d : Ty} {n : Option Int} {e : Ty} (h : DimOf d n e) (hd : Concrete d) : Concrete e := by
  cases h
  · exact hd.2
  · exact hd

theorem dimOf_size {d : Ty} {n : Option Int} {e : Ty} (h : DimOf d n e) :
    dimSizeOf d = some (n.getD (-1), e, n.isNone) := by cases h <;> rfl

theorem dimOf_varDim {d : Ty} {n : Option Int} {e : Ty} (h : DimOf d n e) : isVarDim d = n.isNone := by cases h <;> rfl

/-- one dimension of an assignment between arrays -/
theorem dims_step {f : Ty → Ty → Res (List ANode)} {d s de se : Ty} {n n' : Option Int} {r : List ANode}
    (h1 : DimOf d n de) (h2 : DimOf s n' se) (hn : s.ndim = d.ndim) (hz : SizesFit n n')
    (hr : resolveDims f de.ndim de se = .ok r) :
    resolveDims f d.ndim d s = .ok (.elw n.isNone n'.isNone (n' == some 1) :: r) := by
  rw [dimOf_ndim h1]
  have hc : ¬ (n'.getD (-1) ≠ 1 ∧ n'.getD (-1) ≠ -1 ∧ n.getD (-1) ≠ -1 ∧ n.getD (-1) ≠ n'.getD (-1)) := by
    cases n <;> cases n' <;> simp_all [SizesFit]
    omega
  have hlt : ¬ (decide (s.ndim < de.ndim + 1) = true) := by rw [dimOf_ndim h1] at hn; simp; omega
  have hb : (n'.getD (-1) == 1) = (n' == some 1) := by cases n' <;> simp
  unfold resolveDims
  rw [dimOf_size h1]
  simp only []
  rw [if_neg hlt, dimOf_size h2]
  simp only []
  rw [if_neg hc, hr, Res.bind_ok, hb]
  cases h2 <;> rfl

theorem bcast_step {f : Ty → Ty → Res (List ANode)} {d s de : Ty} {n : Option Int} {r : List ANode}
    (h1 : DimOf d n de) (hn : s.ndim < d.ndim) (hr : resolveDims f de.ndim de s = .ok r) :
    resolveDims f d.ndim d s = .ok (.elw n.isNone (isVarDim s) true :: r) := by
  have hlt : decide (s.ndim < de.ndim + 1) = true := by rw [dimOf_ndim h1] at hn; simp; omega
  rw [dimOf_ndim h1]
  unfold resolveDims
  rw [dimOf_size h1]
  simp only []
  rw [if_pos hlt, hr, Res.bind_ok]
  cases s <;> rfl

/-- the kernel for the plain value of an option parsed from a string (built, but never used) -/
theorem parse_node (same : List Nat → Bool) (kw : AKwds) (m : AMode) (hm : ∀ b, modeOf b kw = .ok m) (l : Bool) {b : BTy}
    (hb : b ∈ [BTy.bool, .int .w8, .int .w16, .int .w32, .int .w64, .flt .f32, .flt .f64]) :
    ∃ n, ∀ f, resolveA same (assignTable.map some) kw (f + 1) l (.prim b) (.leaf .string) = .ok [n] := by
  simp only [List.mem_cons, List.not_mem_nil, or_false] at hb
  have cS : Concrete (.leaf .string) := trivial
  have cP : ∀ {b : BTy}, Concrete (.prim b) := trivial
  rcases hb with rfl | rfl | rfl | rfl | rfl | rfl | rfl
  · refine ⟨.parseBool l (specMode m), fun f => ?_⟩
    unfold resolveA
    rw [assign_choice same (e := .boolStr) (tbl_mem (by simp)) cP cS ⟨rfl, rfl⟩ (by simp) (by simp), Res.bind_ok]
    simp only [hm, Res.bind_ok, effMode_spec]; rfl
  · refine ⟨.parseInt .w8 m, fun f => ?_⟩
    unfold resolveA
    rw [assign_choice same (e := .intStr .w8) (tbl_mem (by simp)) cP cS ⟨rfl, .inl rfl⟩ (by simp) (by simp), Res.bind_ok]
    simp only [hm, Res.bind_ok, effMode_spec]; rfl
  · refine ⟨.parseInt .w16 m, fun f => ?_⟩
    unfold resolveA
    rw [assign_choice same (e := .intStr .w16) (tbl_mem (by simp)) cP cS ⟨rfl, .inl rfl⟩ (by simp) (by simp), Res.bind_ok]
    simp only [hm, Res.bind_ok, effMode_spec]; rfl
  · refine ⟨.parseInt .w32 m, fun f => ?_⟩
    unfold resolveA
    rw [assign_choice same (e := .intStr .w32) (tbl_mem (by simp)) cP cS ⟨rfl, .inl rfl⟩ (by simp) (by simp), Res.bind_ok]
    simp only [hm, Res.bind_ok, effMode_spec]; rfl
  · refine ⟨.parseInt .w64 m, fun f => ?_⟩
    unfold resolveA
    rw [assign_choice same (e := .intStr .w64) (tbl_mem (by simp)) cP cS ⟨rfl, .inl rfl⟩ (by simp) (by simp), Res.bind_ok]
    simp only [hm, Res.bind_ok, effMode_spec]; rfl
  · refine ⟨.parseF32 l m, fun f => ?_⟩
    unfold resolveA
    rw [assign_choice same (e := .f32Str) (tbl_mem (by simp)) cP cS ⟨rfl, rfl⟩ (by simp) (by simp), Res.bind_ok]
    simp only [hm, Res.bind_ok, effMode_spec]; rfl
  · refine ⟨.parseF64 m, fun f => ?_⟩
    unfold resolveA
    rw [assign_choice same (e := .f64Str) (tbl_mem (by simp)) cP cS ⟨rfl, rfl⟩ (by simp) (by simp), Res.bind_ok]
    simp only [hm, Res.bind_ok, effMode_spec]; rfl

theorem works_builds (same : List Nat → Bool) (kw : AKwds) (m : AMode) (hm : ∀ b, modeOf b kw = .ok m) {l t : Bool}
    {d s : Ty} (h : Works l t d s) : Concrete d → Concrete s → Builds same kw m l t d s := by
  induction h with
  | num l t d s hd hs =>
    intro cd cs
    refine builds_leaf (n := .cast d s (specMode m)) (fun h => h) rfl rfl rfl (.num d s) (fun f => ?_)
    unfold resolveA
    rw [assign_choice same (num_mem hd hs) cd cs ⟨rfl, rfl⟩ (by simp) (by simp), Res.bind_ok]
    simp only [hm, Res.bind_ok, effMode_spec]; rfl
  | string l t =>
    intro cd cs
    refine builds_leaf (n := .copyString (specMode m)) (fun h => h) rfl rfl rfl .string (fun f => ?_)
    unfold resolveA
    rw [assign_choice same (e := .strStr) (tbl_mem (by simp)) cd cs ⟨rfl, rfl⟩ (by simp) (by simp), Res.bind_ok]
    simp only [hm, Res.bind_ok, effMode_spec]; rfl
  | bytes l t =>
    intro cd cs
    refine builds_leaf (n := .copyBytes (specMode m)) (fun h => h) rfl rfl rfl .bytes (fun f => ?_)
    unfold resolveA
    rw [assign_choice same (e := .bytesBytes) (tbl_mem (by simp)) cd cs ⟨rfl, rfl⟩ (by simp) (by simp), Res.bind_ok]
    simp only [hm, Res.bind_ok, effMode_spec]; rfl
  | type l t =>
    intro cd cs
    refine builds_leaf (n := .copyType (specMode m)) (fun h => h) rfl rfl rfl .type (fun f => ?_)
    unfold resolveA
    rw [assign_choice same (e := .typeType) (tbl_mem (by simp)) cd cs ⟨rfl, rfl⟩ (by simp) (by simp), Res.bind_ok]
    simp only [hm, Res.bind_ok, effMode_spec]; rfl
  | fsFs t n e n' e' =>
    intro cd cs
    refine builds_leaf (n := .fsFromFs true m) (fun h => h) rfl rfl rfl (.fsFs n e n' e') (fun f => ?_)
    unfold resolveA
    rw [assign_choice same (e := .fsFs) (tbl_mem (by simp)) cd cs ⟨⟨_, _, rfl⟩, ⟨_, _, rfl⟩⟩ (by simp) (by simp), Res.bind_ok]
    simp only [hm, Res.bind_ok, effMode_spec]; rfl
  | fsStr l t n e =>
    intro cd cs
    refine builds_leaf (n := .fsFromStr m) (fun h => h) rfl rfl rfl (.fsStr n e) (fun f => ?_)
    unfold resolveA
    rw [assign_choice same (e := .fsStr) (tbl_mem (by simp)) cd cs ⟨⟨_, _, rfl⟩, rfl⟩ (by simp) (by simp), Res.bind_ok]
    simp only [hm, Res.bind_ok, effMode_spec]; rfl
  | strFs l t n e =>
    intro cd cs
    refine builds_leaf (n := .strFromFs m) (fun h => h) rfl rfl rfl (.strFs n e) (fun f => ?_)
    unfold resolveA
    rw [assign_choice same (e := .strFs) (tbl_mem (by simp)) cd cs ⟨rfl, ⟨_, _, rfl⟩⟩ (by simp) (by simp), Res.bind_ok]
    simp only [hm, Res.bind_ok, effMode_spec]; rfl
  | charStr l t =>
    intro cd cs
    refine builds_leaf (n := .charFromStr m) (fun h => h) rfl rfl rfl .charStr (fun f => ?_)
    unfold resolveA
    rw [assign_choice same (e := .charStr) (tbl_mem (by simp)) cd cs ⟨rfl, rfl⟩ (by simp) (by simp), Res.bind_ok]
    simp only [hm, Res.bind_ok, effMode_spec]; rfl
  | strChar l t =>
    intro cd cs
    refine builds_leaf (n := .strFromChar m) (fun h => h) rfl rfl rfl .strChar (fun f => ?_)
    unfold resolveA
    rw [assign_choice same (e := .strChar) (tbl_mem (by simp)) cd cs ⟨rfl, rfl⟩ (by simp) (by simp), Res.bind_ok]
    simp only [hm, Res.bind_ok, effMode_spec]; rfl
  | intStr l t w hw =>
    intro cd cs
    refine builds_leaf (n := .parseInt w m) (fun h => h) rfl rfl rfl (.intStr w) (fun f => ?_)
    unfold resolveA
    rw [assign_choice same (e := .intStr w) (tbl_mem (by cases w <;> simp_all)) cd cs ⟨rfl, .inl rfl⟩ (by simp) (by simp), Res.bind_ok]
    simp only [hm, Res.bind_ok, effMode_spec]; rfl
  | intFs l t w n e hw =>
    intro cd cs
    refine builds_leaf (n := .parseInt w m) (fun h => h) rfl rfl rfl (.intFs w n e) (fun f => ?_)
    unfold resolveA
    rw [assign_choice same (e := .intStr w) (tbl_mem (by cases w <;> simp_all)) cd cs ⟨rfl, .inr ⟨_, _, rfl⟩⟩ (by simp) (by simp), Res.bind_ok]
    simp only [hm, Res.bind_ok, effMode_spec]; rfl
  | boolStr t =>
    intro cd cs
    refine builds_leaf (n := .parseBool true (specMode m)) (fun h => h) rfl rfl rfl .boolStr (fun f => ?_)
    unfold resolveA
    rw [assign_choice same (e := .boolStr) (tbl_mem (by simp)) cd cs ⟨rfl, rfl⟩ (by simp) (by simp), Res.bind_ok]
    simp only [hm, Res.bind_ok, effMode_spec]; rfl
  | f32Str t =>
    intro cd cs
    refine builds_leaf (n := .parseF32 true m) (fun h => h) rfl rfl rfl .f32Str (fun f => ?_)
    unfold resolveA
    rw [assign_choice same (e := .f32Str) (tbl_mem (by simp)) cd cs ⟨rfl, rfl⟩ (by simp) (by simp), Res.bind_ok]
    simp only [hm, Res.bind_ok, effMode_spec]; rfl
  | f64Str l t =>
    intro cd cs
    refine builds_leaf (n := .parseF64 m) (fun h => h) rfl rfl rfl .f64Str (fun f => ?_)
    unfold resolveA
    rw [assign_choice same (e := .f64Str) (tbl_mem (by simp)) cd cs ⟨rfl, rfl⟩ (by simp) (by simp), Res.bind_ok]
    simp only [hm, Res.bind_ok, effMode_spec]; rfl
  | typeStr l t =>
    intro cd cs
    refine builds_leaf (n := .typeFromStr) (fun h => h) rfl rfl rfl .typeStr (fun f => ?_)
    unfold resolveA
    rw [assign_choice same (e := .typeStr) (tbl_mem (by simp)) cd cs ⟨rfl, rfl⟩ (by simp) (by simp), Res.bind_ok]
  | strType l t =>
    intro cd cs
    refine builds_leaf (n := .strFromType) (fun h => h) rfl rfl rfl .strType (fun f => ?_)
    unfold resolveA
    rw [assign_choice same (e := .strType) (tbl_mem (by simp)) cd cs ⟨rfl, rfl⟩ (by simp) (by simp), Res.bind_ok]
  | optNumStr l b hb =>
    intro cd cs
    obtain ⟨n, hn⟩ := parse_node same kw m hm l hb
    have hna : HasNa (.prim b) := by
      simp only [List.mem_cons, List.not_mem_nil, or_false] at hb
      rcases hb with rfl | rfl | rfl | rfl | rfl | rfl | rfl <;> simp [HasNa]
    have hnode : Right m (.mk (optStrNode (.prim b)) []) (.option (.prim b)) (.leaf .string) ∧
        (optStrNode (.prim b)).alive = true ∧ (optStrNode (.prim b)).arity = 0 ∧
        (optStrNode (.prim b)).isForward = false := by
      simp only [List.mem_cons, List.not_mem_nil, or_false] at hb
      rcases hb with rfl | rfl | rfl | rfl | rfl | rfl | rfl <;>
        first | exact ⟨.optBoolStr, rfl, rfl, rfl⟩ | exact ⟨.optNumStr _, rfl, rfl, rfl⟩
    refine ⟨2, optStrNode (.prim b) :: ([n] ++ [.assignNa (.prim b)]), _, hnode.1, ?_, fun h => h.elim, ?_⟩
    · intro f hf
      obtain ⟨f, rfl⟩ : ∃ k, f = k + 2 := ⟨f - 2, by omega⟩
      unfold resolveA
      rw [assign_choice same (e := .optStr) (tbl_mem (by simp)) cd cs ⟨⟨_, rfl⟩, rfl⟩ (by simp) (by simp), Res.bind_ok]
      simp only [hm, Res.bind_ok, assignNa_ok hna, hn f]; rfl
    · intro rest
      refine ⟨[n] ++ [.assignNa (.prim b)] ++ rest, fun h => absurd h (by simp), fun g hg => ?_⟩
      · obtain ⟨g, rfl⟩ : ∃ k, g = k + 1 := ⟨g - 1, by omega⟩
        exact inst_leaf hnode.2.1 hnode.2.2.1 hnode.2.2.2 g _
  | optOpt l t d s hd hs _ ih =>
    intro cd cs
    obtain ⟨F, ns, k, hr, he, _, hi⟩ := ih cd.1 cs.1
    refine ⟨F + 3, .optCopy :: ([.isNa s] ++ [.assignNa d] ++ ns), _, .optOpt d s k hr, ?_, fun h => h.elim, ?_⟩
    · intro f hf
      obtain ⟨f, rfl⟩ : ∃ k, f = k + 1 := ⟨f - 1, by omega⟩
      unfold resolveA
      rw [assign_choice same (e := .optOpt) (tbl_mem (by simp)) cd cs ⟨⟨_, rfl⟩, ⟨_, rfl⟩⟩ (by simp) (by simp), Res.bind_ok]
      simp only [isNa_ok hs, assignNa_ok hd, Res.bind_ok, he f (by omega)]; rfl
    · intro rest
      obtain ⟨r, h1, h2⟩ := hi rest
      refine ⟨r, h1, fun g hg => ?_⟩
      obtain ⟨g, rfl⟩ : ∃ k, g = k + 2 := ⟨g - 2, by omega⟩
      refine inst_node rfl rfl ?_
      show instKids (instA (g + 1)) 3 (.isNa s :: .assignNa d :: (ns ++ rest)) = _
      exact kids_leaf rfl rfl rfl (kids_leaf rfl rfl rfl (kids_last (h2 _ (by omega))))
  | optFloat l t d f0 hd hf _ ih =>
    intro cd cs
    obtain ⟨F, ns, k, hr, he, _, hi⟩ := ih cd.1 cs
    have hs : HasNa (.prim (.flt f0)) := by rcases hf with rfl | rfl <;> simp [HasNa]
    refine ⟨F + 3, .optCopy :: ([.isNa (.prim (.flt f0))] ++ [.assignNa d] ++ ns), _, .optFloat d f0 k hr, ?_, fun h => h.elim, ?_⟩
    · intro f hf
      obtain ⟨f, rfl⟩ : ∃ k, f = k + 1 := ⟨f - 1, by omega⟩
      unfold resolveA
      rw [assign_choice same (e := .optFloat) (tbl_mem (by simp)) cd cs ⟨⟨_, rfl⟩, ⟨_, rfl⟩⟩ (by simp) (by simp), Res.bind_ok]
      simp only [isNa_ok hs, assignNa_ok hd, Res.bind_ok, he f (by omega)]; rfl
    · intro rest
      obtain ⟨r, h1, h2⟩ := hi rest
      refine ⟨r, h1, fun g hg => ?_⟩
      obtain ⟨g, rfl⟩ : ∃ k, g = k + 2 := ⟨g - 2, by omega⟩
      refine inst_node rfl rfl ?_
      show instKids (instA (g + 1)) 3 (.isNa (.prim (.flt f0)) :: .assignNa d :: (ns ++ rest)) = _
      exact kids_leaf rfl rfl rfl (kids_leaf rfl rfl rfl (kids_last (h2 _ (by omega))))
  | optVal l t d s h1 h2 h3 h4 _ ih =>
    intro cd cs
    obtain ⟨F, ns, k, hr, he, _, hi⟩ := ih cd.1 cs
    have hch : ∀ e' ∈ assignTable, Handles e' (.option d) s → e' = .valOpt := by
      intro e' _ hh
      cases e'
      case valOpt => rfl
      case optOpt => obtain ⟨_, x, hx⟩ := hh; exact absurd hx (h1 x)
      case optToVal => obtain ⟨_, x, hx⟩ := hh; exact absurd hx (h1 x)
      case optStr => exact absurd hh.2 h3
      case optFloat => obtain ⟨_, x, hx⟩ := hh; exact absurd hx (h2 x)
      case elwSD => exact absurd hh.2 h4
      all_goals (exfalso; simp [Handles, IsDim] at hh)
    refine ⟨F + 1, ns, k, .optVal d s k h1 h2 h3 hr, ?_, fun h => h.elim, ?_⟩
    · intro f hf
      obtain ⟨f, rfl⟩ : ∃ k, f = k + 1 := ⟨f - 1, by omega⟩
      unfold resolveA
      rw [assign_choice same (e := .valOpt) (tbl_mem (by simp)) cd cs h4 (by simp) (fun _ => hch), Res.bind_ok]
      have : unOption s = s := by cases s <;> first | rfl | exact absurd rfl (h1 _)
      simp only [this, unOption]
      exact he f (by omega)
    · intro rest
      obtain ⟨r, h1, h2⟩ := hi rest
      exact ⟨r, h1, fun g hg => h2 g (by omega)⟩
  | valOpt l t d s h1 h2 hs _ ih =>
    intro cd cs
    obtain ⟨F, ns, k, hr, he, _, hi⟩ := ih cd cs.1
    refine ⟨F + 3, .optCheck :: ([.isNa s] ++ ns), _, .valOpt d s k h1 hr, ?_, fun h => absurd h h2, ?_⟩
    · intro f hf
      obtain ⟨f, rfl⟩ : ∃ k, f = k + 1 := ⟨f - 1, by omega⟩
      unfold resolveA
      rw [assign_choice same (e := .optToVal) (tbl_mem (by simp)) cd cs ⟨h2, ⟨_, rfl⟩⟩ (fun _ => h1) (by simp), Res.bind_ok]
      simp only [isNa_ok hs, Res.bind_ok, he f (by omega)]; rfl
    · intro rest
      obtain ⟨r, h1, h2⟩ := hi rest
      refine ⟨r, h1, fun g hg => ?_⟩
      obtain ⟨g, rfl⟩ : ∃ k, g = k + 2 := ⟨g - 2, by omega⟩
      refine inst_node rfl rfl ?_
      show instKids (instA (g + 1)) 2 (.isNa s :: (ns ++ rest)) = _
      exact kids_leaf rfl rfl rfl (kids_last (h2 _ (by omega)))
  | tuple l t ds ss hl h8 _ ih =>
    intro cd cs
    obtain ⟨F, ns, ks, hk, hr, he, hi⟩ := builds_fields (same := same) (kw := kw) (m := m) (l := true) (t := t) ds ss hl
      (fun i d s hd hs => ih i d s hd hs (concreteAll_get cd.2 hd) (concreteAll_get cs.2 hs))
    refine ⟨F + 1, .record (List.range ds.length) :: ns, _, .tuple ds ss ks hl hk hr, ?_, fun h => h.elim, ?_⟩
    · intro f hf
      obtain ⟨f, rfl⟩ : ∃ k, f = k + 1 := ⟨f - 1, by omega⟩
      unfold resolveA
      rw [assign_choice same (e := .tupTup) (tbl_mem (by simp)) cd cs ⟨⟨_, _, rfl⟩, ⟨_, _, rfl⟩⟩ (by simp) (by simp), Res.bind_ok]
      simp only []
      rw [if_neg (by simpa using hl), if_neg (by omega), he f (by omega), Res.bind_ok]; rfl
    · intro rest
      obtain ⟨r, h1, h2⟩ := hi rest
      refine ⟨r, h1, fun g hg => ?_⟩
      obtain ⟨g, rfl⟩ : ∃ k, g = k + 1 := ⟨g - 1, by omega⟩
      refine inst_node rfl rfl ?_
      simp only [ANode.arity, List.length_range]
      exact h2 g (by omega)
  | struct l t dn sn ds ss hl h8 hdn hsn hnd hin _ ih =>
    intro cd cs
    obtain ⟨fs, em, hfl, hf⟩ := matchStruct_ok hnd hsn dn 0 (by omega) hin
    have hfget : ∀ (i : Nat) s', (fs.map (·.2))[i]? = some s' → ∃ j, fs[i]? = some (j, s') := by
      intro i s' h
      rw [List.getElem?_map] at h
      cases hx : fs[i]? with
      | none => rw [hx] at h; cases h
      | some p => rw [hx] at h; simp at h; exact ⟨p.1, by rw [← h]⟩
    have hjget : ∀ (i j : Nat), (fs.map (·.1))[i]? = some j → ∃ u, fs[i]? = some (j, u) := by
      intro i j h
      rw [List.getElem?_map] at h
      cases hx : fs[i]? with
      | none => rw [hx] at h; cases h
      | some p => rw [hx] at h; simp at h; exact ⟨p.2, by rw [← h]⟩
    obtain ⟨F, ns, ks, hk, hr, he, hi⟩ := builds_fields (same := same) (kw := kw) (m := m) (l := false) (t := t) ds
      (fs.map (·.2)) (by simp; omega) (fun i d s hd hs => by
        obtain ⟨j, hj⟩ := hfget i s hs
        obtain ⟨n, h1, h2, h3⟩ := hf i j s hj
        exact ih i j n d s h1 h2 hd h3 (concreteAll_get cd.2.2 hd) (concreteAll_get cs.2.2 h3))
    refine ⟨F + 1, .record (fs.map (·.1)) :: ns, _, .struct dn sn ds ss (fs.map (·.1)) ks hk (by simp; omega) ?_ ?_, ?_, fun h => h.elim, ?_⟩
    · intro i j hj
      obtain ⟨u, hu⟩ := hjget i j hj
      obtain ⟨n, h1, h2, _⟩ := hf i j u hu
      exact ⟨n, h1, h2⟩
    · intro i j k d s h1 h2 h3 h4
      obtain ⟨u, hu⟩ := hjget i j h3
      obtain ⟨n, _, _, h5⟩ := hf i j u hu
      rw [h4, Option.some.injEq] at h5
      subst h5
      exact hr i k d s h1 h2 (by rw [List.getElem?_map, hu]; rfl)
    · intro f hf
      obtain ⟨f, rfl⟩ : ∃ k, f = k + 1 := ⟨f - 1, by omega⟩
      unfold resolveA
      rw [assign_choice same (e := .structStruct) (tbl_mem (by simp)) cd cs ⟨⟨_, _, _, rfl⟩, ⟨_, _, _, rfl⟩⟩ (by simp) (by simp), Res.bind_ok]
      simp only []
      rw [if_neg (by simpa using hl), em, Res.bind_ok, he f (by omega), Res.bind_ok]; rfl
    · intro rest
      obtain ⟨r, h1, h2⟩ := hi rest
      refine ⟨r, h1, fun g hg => ?_⟩
      obtain ⟨g, rfl⟩ : ∃ k, g = k + 1 := ⟨g - 1, by omega⟩
      refine inst_node rfl rfl ?_
      simp only [ANode.arity, List.length_map]
      rw [hfl, hdn]
      exact h2 g (by omega)
  | dims l t d s de se n n' h1 h2 hn hz _ ih =>
    intro cd cs
    obtain ⟨F, ns, k, hr, he, hd, hi⟩ := ih (dimOf_concrete h1 cd) (dimOf_concrete h2 cs)
    have hdim : ∀ f, F ≤ f → resolveDims (resolveA same (assignTable.map some) kw f false) d.ndim d s =
        .ok (.elw n.isNone n'.isNone (n' == some 1) :: ns) := by
      intro f hf
      refine dims_step h1 h2 hn hz ?_
      by_cases hde : IsDim de
      · exact hd hde f hf
      · rw [not_dim_ndim (dimOf_concrete h1 cd) hde]; exact he f hf
    refine ⟨F + 1, _, _, .dims d s de se n n' k h1 h2 hn hr, ?_, fun _ f hf => hdim f (by omega), ?_⟩
    · intro f hf
      obtain ⟨f, rfl⟩ : ∃ k, f = k + 1 := ⟨f - 1, by omega⟩
      unfold resolveA
      rw [assign_choice same (e := .elwDD) (tbl_mem (by simp)) cd cs ⟨dimOf_isDim h1, dimOf_isDim h2⟩ (by simp) (by simp), Res.bind_ok]
      simp only [resolveElw]
      rw [if_neg (by omega)]
      exact hdim f (by omega)
    · intro rest
      obtain ⟨r, h1, h2⟩ := hi rest
      refine ⟨r, h1, fun g hg => ?_⟩
      obtain ⟨g, rfl⟩ : ∃ k, g = k + 1 := ⟨g - 1, by omega⟩
      refine inst_node rfl rfl ?_
      exact kids_last (h2 g (by omega))
  | bcast l t d s de n h1 hn _ ih =>
    intro cd cs
    obtain ⟨F, ns, k, hr, he, hd, hi⟩ := ih (dimOf_concrete h1 cd) cs
    have hdim : ∀ f, F ≤ f → resolveDims (resolveA same (assignTable.map some) kw f false) d.ndim d s =
        .ok (.elw n.isNone (isVarDim s) true :: ns) := by
      intro f hf
      refine bcast_step h1 hn ?_
      by_cases hde : IsDim de
      · exact hd hde f hf
      · rw [not_dim_ndim (dimOf_concrete h1 cd) hde]; exact he f hf
    refine ⟨F + 1, _, _, .bcast d s de n k h1 hn hr, ?_, fun _ f hf => hdim f (by omega), ?_⟩
    · intro f hf
      obtain ⟨f, rfl⟩ : ∃ k, f = k + 1 := ⟨f - 1, by omega⟩
      by_cases hs : IsDim s
      · unfold resolveA
        rw [assign_choice same (e := .elwDD) (tbl_mem (by simp)) cd cs ⟨dimOf_isDim h1, hs⟩ (by simp) (by simp), Res.bind_ok]
        simp only [resolveElw]
        rw [if_neg (by omega)]
        exact hdim f (by omega)
      · unfold resolveA
        rw [assign_choice same (e := .elwDS) (tbl_mem (by simp)) cd cs ⟨dimOf_isDim h1, hs⟩ (by simp) (by simp), Res.bind_ok]
        simp only [resolveElw]
        rw [if_neg (by omega)]
        exact hdim f (by omega)
    · intro rest
      obtain ⟨r, h1, h2⟩ := hi rest
      refine ⟨r, h1, fun g hg => ?_⟩
      obtain ⟨g, rfl⟩ : ∃ k, g = k + 1 := ⟨g - 1, by omega⟩
      refine inst_node rfl rfl ?_
      exact kids_last (h2 g (by omega))

/-- The keyword argument of a direct call: a given mode or none. -/
def callMode : Option AMode → AMode
  | none => .default
  | some m => m

/-- The table as the library builds it: `nd::assign` builds for every pair of types it handles (`Works`) a kernel tree
    that assigns a value of the source type to a value of the destination type, with the error mode of the call,
    whichever type objects are shared and however much more stack there is. -/
theorem assign_builds_right_partial (same : List Nat → Bool) (om : Option AMode) {d s : Ty} (hd : Concrete d)
    (hs : Concrete s) (h : Works true true d s) :
    ∃ tbl, makeAssign same = .ok tbl ∧ ∃ F k, Right (callMode om) k d s ∧
      ∀ f, F ≤ f → assignKernel same tbl (some om) f d s = .ok k := by
  refine ⟨_, assign_table same, ?_⟩
  obtain ⟨F, ns, k, hr, he, _, hi⟩ := works_builds same (some om) (callMode om) (by intro b; cases om <;> rfl) h hd hs
  obtain ⟨r, _, hg⟩ := hi []
  refine ⟨F, k, hr, fun f hf => ?_⟩
  unfold assignKernel
  rw [he f hf, Res.bind_ok]
  have := hg f hf
  rw [List.append_nil] at this
  rw [this]; rfl

/-! ### Pairs of types that are not handled -/

/-- A pair of types, neither an array nor an option, that no conversion is meant for: instead of an error there is no
    end to the recursion (`Any <- Scalar` calls itself with the same types), whatever the size of the stack. -/
theorem unsupported_never_ends (same : List Nat → Bool) (kw : AKwds) {d s : Ty} (hd : Concrete d) (hs : Concrete s)
    (h1 : ∀ t, d ≠ .option t) (h2 : ∀ t, s ≠ .option t) (h3 : ¬ IsDim s)
    (hno : ∀ e ∈ assignTable, Handles e d s → e = .valOpt) (fuel : Nat) :
    assignKernel same (assignTable.map some) kw fuel d s = .ub := by
  have hu : ∀ (l : Bool), resolveA same (assignTable.map some) kw fuel l d s = .ub := by
    induction fuel with
    | zero => intro l; rfl
    | succ f ih =>
      intro l
      unfold resolveA
      rw [assign_choice same (e := .valOpt) (tbl_mem (by simp)) hd hs h3 (by simp) (fun _ => hno), Res.bind_ok]
      have e1 : unOption d = d := by cases d <;> first | rfl | exact absurd rfl (h1 _)
      have e2 : unOption s = s := by cases s <;> first | rfl | exact absurd rfl (h2 _)
      simp only [e1, e2]
      exact ih false
  unfold assignKernel
  rw [hu, Res.bind_ub]

/-- pairs of scalar types without a conversion -/
inductive NoConversion : Ty → Ty → Prop
  | strNum (b : BTy) : NoConversion (.leaf .string) (.prim b)
  | numStr (b : BTy) : b ∉ [BTy.bool, .int .w8, .int .w16, .int .w32, .int .w64, .flt .f32, .flt .f64] →
      NoConversion (.prim b) (.leaf .string)
  | boolFs (n e : Nat) : NoConversion (.prim .bool) (.leaf (.fixedString n e))
  | fltFs (f : FW) (n e : Nat) : NoConversion (.prim (.flt f)) (.leaf (.fixedString n e))
  | fsNum (n e : Nat) (b : BTy) : b ≠ .int .w32 → NoConversion (.leaf (.fixedString n e)) (.prim b)
  | num (d s : BTy) : ¬ (IsNum d ∧ IsNum s) → NoConversion (.prim d) (.prim s)
  | bytes (a b : Nat) : a ≠ 1 ∨ b ≠ 1 → NoConversion (.leaf (.bytes a)) (.leaf (.bytes b))
  | char (a b : Nat) : NoConversion (.leaf (.char a)) (.leaf (.char b))
  | categorical (i : Nat) (s : Ty) : (∀ t, s ≠ .option t) → ¬ IsDim s → NoConversion (.leaf (.categorical i)) s
  | fromCategorical (i : Nat) (d : Ty) : (∀ t, d ≠ .option t) → ¬ IsDim d → NoConversion d (.leaf (.categorical i))
  | tupleStruct (ts us : List Ty) (ns : List String) : NoConversion (.tuple ts false) (.struct ns us false)
  | structTuple (ts us : List Ty) (ns : List String) : NoConversion (.struct ns us false) (.tuple ts false)
  | pointer (t s : Ty) : (∀ x, s ≠ .pointer x) → (∀ x, s ≠ .option x) → ¬ IsDim s → NoConversion (.pointer t) s
  | fromPointer (t d : Ty) : (∀ x, d ≠ .pointer x) → (∀ x, d ≠ .option x) → ¬ IsDim d → NoConversion d (.pointer t)

theorem num_of_mem {d s : BTy} (h : AEntry.num d s ∈ assignTable) : IsNum d ∧ IsNum s := by
  unfold assignTable at h
  simp only [List.mem_append, List.mem_cons, List.not_mem_nil, or_false, reduceCtorEq, false_or] at h
  unfold numericPairs at h
  simp only [List.mem_flatMap, List.mem_map, AEntry.num.injEq] at h
  obtain ⟨a, ha, b, hb, rfl, rfl⟩ := h
  have key : ∀ x ∈ numericTypes, IsNum x := by
    intro x hx
    simp only [numericTypes, List.mem_cons, List.not_mem_nil, or_false] at hx
    rcases hx with rfl | rfl | rfl | rfl | rfl | rfl | rfl | rfl | rfl | rfl | rfl | rfl | rfl | rfl | rfl <;>
      simp [IsNum]
  exact ⟨key a ha, key b hb⟩

theorem intStr_of_mem {w : Wd} (h : AEntry.intStr w ∈ assignTable) : w ≠ .w128 := by
  intro hw
  subst hw
  have : AEntry.intStr .w128 ∈ assignTable.filter (fun e => match e with | .num _ _ => false | _ => true) :=
    List.mem_filter.2 ⟨h, rfl⟩
  rw [nonNum] at this
  simp at this

theorem noConversion_fallback {d s : Ty} (h : NoConversion d s) (hc : Concrete d) (hs : Concrete s) :
    (∀ t, d ≠ .option t) ∧ (∀ t, s ≠ .option t) ∧ ¬ IsDim s ∧ ∀ e ∈ assignTable, Handles e d s → e = .valOpt := by
  cases h with
  | strNum b => 
    refine ⟨by simp, by simp, fun h => h, ?_⟩
    intro e _ hh
    cases e <;> first | rfl | simp [Handles, IsDim] at hh
  | numStr b hb =>
    refine ⟨by simp, by simp, fun h => h, ?_⟩
    intro e he hh
    cases e <;> first | rfl | (simp [Handles, IsDim] at hh; done) | skip
    · rename_i w
      have := intStr_of_mem he
      simp [Handles] at hh; subst hh
      cases w <;> simp_all
    all_goals (simp [Handles] at hh; subst hh; simp at hb)
  | boolFs n e =>
    refine ⟨by simp, by simp, fun h => h, ?_⟩
    intro e _ hh
    cases e <;> first | rfl | simp [Handles, IsDim] at hh
  | fltFs f n e =>
    refine ⟨by simp, by simp, fun h => h, ?_⟩
    intro e _ hh
    cases e <;> first | rfl | simp [Handles, IsDim] at hh
  | fsNum n e b hb =>
    refine ⟨by simp, by simp, fun h => h, ?_⟩
    intro e _ hh
    cases e <;> first | rfl | (simp [Handles, IsDim] at hh; done) | skip
    simp [Handles] at hh; exact absurd hh hb
  | num d s hn =>
    refine ⟨by simp, by simp, fun h => h, ?_⟩
    intro e he hh
    cases e <;> first | rfl | (simp [Handles, IsDim] at hh; done) | skip
    simp [Handles] at hh; obtain ⟨rfl, rfl⟩ := hh
    exact absurd (num_of_mem he) hn
  | bytes a b hab =>
    refine ⟨by simp, by simp, fun h => h, ?_⟩
    intro e he hh
    cases e <;> first | rfl | (simp [Handles, IsDim] at hh; done) | skip
    simp [Handles] at hh; omega
  | char a b =>
    refine ⟨by simp, by simp, fun h => h, ?_⟩
    intro e he hh
    cases e <;> first | rfl | simp [Handles, IsDim] at hh
  | categorical i _ h1 h2 =>
    refine ⟨by simp, h1, h2, ?_⟩
    intro e he hh
    cases e <;> first | rfl | (simp [Handles, IsDim] at hh; done) | skip
    · obtain ⟨_, x, hx⟩ := hh; exact absurd hx (h1 x)
    · exact absurd hh.2 h2
  | fromCategorical i _ h1 h2 =>
    refine ⟨h1, by simp, fun h => h, ?_⟩
    intro e he hh
    cases e <;> first | rfl | (simp [Handles, IsDim] at hh; done) | skip
    exact absurd hh.1 h2
  | tupleStruct ts us ns =>
    refine ⟨by simp, by simp, fun h => h, ?_⟩
    intro e _ hh
    cases e <;> first | rfl | simp [Handles, IsDim] at hh
  | structTuple ts us ns =>
    refine ⟨by simp, by simp, fun h => h, ?_⟩
    intro e _ hh
    cases e <;> first | rfl | simp [Handles, IsDim] at hh
  | pointer t _ h1 h2 h3 =>
    refine ⟨by simp, h2, h3, ?_⟩
    intro e _ hh
    cases e <;> first | rfl | (simp [Handles, IsDim] at hh; done) | skip
    · obtain ⟨_, x, hx⟩ := hh; exact absurd hx (h2 x)
    · obtain ⟨_, x, hx⟩ := hh; exact absurd hx (h1 x)
    · exact absurd hh.2 h3
  | fromPointer t _ h1 h2 h3 =>
    refine ⟨h2, by simp, fun h => h, ?_⟩
    intro e _ hh
    cases e <;> first | rfl | (simp [Handles, IsDim] at hh; done) | skip
    · obtain ⟨⟨x, hx⟩, _⟩ := hh; exact absurd hx (h1 x)
    · exact absurd hh.1 h3

/-- Assigning between two such types overflows the stack: a number to a string, a string to an unsigned, a complex or
    a 128-bit number, `float16`, a tuple to a struct, anything to or from a categorical. -/
theorem no_conversion_overflows (same : List Nat → Bool) (kw : AKwds) {d s : Ty} (hd : Concrete d) (hs : Concrete s)
    (h : NoConversion d s) (fuel : Nat) : assignKernel same (assignTable.map some) kw fuel d s = .ub := by
  obtain ⟨h1, h2, h3, h4⟩ := noConversion_fallback h hd hs
  exact unsupported_never_ends same kw hd hs h1 h2 h3 h4 fuel

/-- A struct with an option, an array of tuples and a text field, the source fields in another order and of other
    types. -/
example (same : List Nat → Bool) (om : Option AMode) :
    let d := Ty.struct ["a", "b", "c"] [.option (.prim (.int .w32)),
      .fixedDim 3 (.varDim (.tuple [.prim (.flt .f64), .leaf .string] false)), .prim (.int .w64)] false
    let s := Ty.struct ["c", "a", "b"] [.leaf .string, .option (.prim (.int .w8)),
      .fixedDim 1 (.varDim (.tuple [.prim (.int .w16), .leaf (.fixedString 5 1)] false))] false
    ∃ tbl, makeAssign same = .ok tbl ∧ ∃ F k, Right (callMode om) k d s ∧
      ∀ f, F ≤ f → assignKernel same tbl (some om) f d s = .ok k := by
  intro d s
  refine assign_builds_right_partial same om ?_ ?_ ?_
  · simp [d, Concrete, ConcreteAll]
  · simp [s, Concrete, ConcreteAll]
  · refine .struct _ _ _ _ _ _ rfl (by simp) rfl rfl (by simp) (by simp) ?_
    intro i j n d s h1 h2 h3 h4
    match i, j with
    | 0, 0 => simp at h1 h2; subst h1; simp at h2
    | 0, 1 =>
      simp at h3 h4; subst h3; subst h4
      exact .optOpt _ _ _ _ (by simp [HasNa]) (by simp [HasNa])
        (.num _ _ _ _ ⟨by simp, by simp, by simp⟩ ⟨by simp, by simp, by simp⟩)
    | 0, 2 => simp at h1 h2; subst h1; simp at h2
    | 1, 0 => simp at h1 h2; subst h1; simp at h2
    | 1, 1 => simp at h1 h2; subst h1; simp at h2
    | 1, 2 =>
      simp at h3 h4; subst h3; subst h4
      refine .dims _ _ _ _ _ _ _ _ (.fixed _ _) (.fixed _ _) rfl (.inr rfl) ?_
      refine .dims _ _ _ _ _ _ _ _ (.var _) (.var _) rfl trivial ?_
      refine .tuple _ _ _ _ rfl (by simp) ?_
      intro i d s h1 h2
      match i with
      | 0 =>
        simp at h1 h2; subst h1; subst h2
        exact .num _ _ _ _ ⟨by simp, by simp, by simp⟩ ⟨by simp, by simp, by simp⟩
      | 1 => simp at h1 h2; subst h1; subst h2; exact .strFs _ _ _ _
      | i + 2 => simp at h1
    | 2, 0 => simp at h3 h4; subst h3; subst h4; exact .intStr _ _ _ (by simp)
    | 2, 1 => simp at h1 h2; subst h1; simp at h2
    | 2, 2 => simp at h1 h2; subst h1; simp at h2
    | _, j + 3 => simp at h2
    | i + 3, _ => simp at h1

example (same : List Nat → Bool) (kw : AKwds) (fuel : Nat) :
    assignKernel same (assignTable.map some) kw fuel (.leaf .string) (.prim (.int .w32)) = .ub :=
  no_conversion_overflows same kw (d := .leaf .string) (s := .prim (.int .w32)) trivial trivial (.strNum _) fuel

/-! ### Rejections -/

/-- An array cannot be assigned to a scalar, nor to an array with fewer dimensions: a broadcast error. -/
theorem too_many_dims_rejected (same : List Nat → Bool) (kw : AKwds) {d s : Ty} (hd : Concrete d) (hs : Concrete s)
    (h : d.ndim < s.ndim) (fuel : Nat) :
    assignKernel same (assignTable.map some) kw (fuel + 1) d s = .throw .broadcast := by
  have hsd : IsDim s := by
    by_cases hx : IsDim s
    · exact hx
    · have := not_dim_ndim hs hx; omega
  have : resolveA same (assignTable.map some) kw (fuel + 1) true d s = .throw .broadcast := by
    unfold resolveA
    by_cases hx : IsDim d
    · rw [assign_choice same (e := .elwDD) (tbl_mem (by simp)) hd hs ⟨hx, hsd⟩ (by simp) (by simp), Res.bind_ok]
      simp only [resolveElw]; rw [if_pos h]
    · rw [assign_choice same (e := .elwSD) (tbl_mem (by simp)) hd hs ⟨hx, hsd⟩ (by simp) (by simp), Res.bind_ok]
      simp only [resolveElw]; rw [if_pos h]
  unfold assignKernel
  rw [this, Res.bind_throw]

/-- Two fixed dimensions of different sizes, the source size not one: rejected. -/
theorem size_mismatch_rejected (same : List Nat → Bool) (kw : AKwds) {n n' : Int} {de se : Ty}
    (hd : Concrete (.fixedDim n de)) (hs : Concrete (.fixedDim n' se)) (hn : de.ndim = se.ndim) (h1 : n' ≠ n)
    (h2 : n' ≠ 1) (fuel : Nat) :
    assignKernel same (assignTable.map some) kw (fuel + 1) (.fixedDim n de) (.fixedDim n' se) = .throw .runtime := by
  have : resolveA same (assignTable.map some) kw (fuel + 1) true (.fixedDim n de) (.fixedDim n' se) = .throw .runtime := by
    unfold resolveA
    rw [assign_choice same (e := .elwDD) (tbl_mem (by simp)) hd hs (by exact ⟨trivial, trivial⟩) (by simp) (by simp),
      Res.bind_ok]
    simp only [resolveElw]
    rw [if_neg (by simp only [Ty.ndim]; omega)]
    show resolveDims _ (de.ndim + 1) _ _ = _
    unfold resolveDims
    simp only [dimSizeOf]
    rw [if_neg (by simp [Ty.ndim]; omega), if_pos ⟨h2, by have := hs.1; omega, by have := hd.1; omega, fun e => h1 e.symm⟩]
  unfold assignKernel
  rw [this, Res.bind_throw]

/-- Tuples with different numbers of fields are rejected. -/
theorem tuple_length_rejected (same : List Nat → Bool) (kw : AKwds) {ds ss : List Ty} (hd : Concrete (.tuple ds false))
    (hs : Concrete (.tuple ss false)) (h : ds.length ≠ ss.length) (fuel : Nat) :
    assignKernel same (assignTable.map some) kw (fuel + 1) (.tuple ds false) (.tuple ss false) = .throw .typeError := by
  unfold assignKernel resolveA
  rw [assign_choice same (e := .tupTup) (tbl_mem (by simp)) hd hs ⟨⟨_, _, rfl⟩, ⟨_, _, rfl⟩⟩ (by simp) (by simp),
    Res.bind_ok]
  simp only []
  rw [if_pos h, Res.bind_throw]

/-! ### Violations -/

/-- A fixed-size byte string cannot be assigned to one of the same type: the closure is missing, the call always
    fails. -/
theorem fixed_bytes_never (same : List Nat → Bool) (kw : AKwds) (n a n' a' fuel : Nat) :
    assignKernel same (assignTable.map some) kw (fuel + 1) (.leaf (.fixedBytes n a)) (.leaf (.fixedBytes n' a')) =
      .throw .runtime := by
  have hc : ∀ {n a : Nat}, Concrete (.leaf (.fixedBytes n a)) := trivial
  unfold assignKernel resolveA
  rw [assign_choice same (e := .fbFb) (tbl_mem (by simp)) hc hc ⟨⟨_, _, rfl⟩, ⟨_, _, rfl⟩⟩ (by simp) (by simp),
    Res.bind_ok, Res.bind_throw]

/-- Assigning an integer to a fixed-size string builds the kernel that parses a string into an integer. -/
theorem fixed_string_from_int_wrong (same : List Nat → Bool) (kw : AKwds) (m : AMode) (n e fuel : Nat) :
    ∃ k, assignKernel same (assignTable.map some) kw (fuel + 1) (.leaf (.fixedString n e)) (.prim (.int .w32)) = .ok k ∧
      ¬ Right m k (.leaf (.fixedString n e)) (.prim (.int .w32)) := by
  have hc : ∀ {n e : Nat}, Concrete (.leaf (.fixedString n e)) := trivial
  have hp : Concrete (.prim (.int .w32)) := trivial
  refine ⟨.mk (.parseInt .w32 .default) [], ?_, ?_⟩
  · unfold assignKernel resolveA
    rw [assign_choice same (e := .fsInt32) (tbl_mem (by simp)) hc hp ⟨⟨_, _, rfl⟩, rfl⟩ (by simp) (by simp), Res.bind_ok]
    simp only [Res.bind_ok]
    rw [inst_leaf rfl rfl rfl]; rfl
  · intro h
    cases h

/-- Assigning a pointer never works: the kernel for the pointed-to value is asked for but was never added to the
    call graph. -/
theorem pointer_never (same : List Nat → Bool) (kw : AKwds) {d s : Ty} (hd : Concrete (.pointer d))
    (hs : Concrete (.pointer s)) (fuel : Nat) :
    assignKernel same (assignTable.map some) kw fuel (.pointer d) (.pointer s) = .ub := by
  cases fuel with
  | zero => rfl
  | succ f =>
    unfold assignKernel resolveA
    rw [assign_choice same (e := .ptrPtr) (tbl_mem (by simp)) hd hs ⟨⟨_, rfl⟩, ⟨_, rfl⟩⟩ (by simp) (by simp),
      Res.bind_ok]
    simp only [Res.bind_ok]
    rw [instA, if_pos (show ANode.ptrCopy.alive = true from rfl)]
    · simp only [ANode.arity, instKids]
      cases f <;> rfl
    · simp

/-- Assigning a string to an optional string never ends: the closure calls itself. -/
theorem option_string_never (same : List Nat → Bool) (kw : AKwds) (fuel : Nat) :
    assignKernel same (assignTable.map some) kw fuel (.option (.leaf .string)) (.leaf .string) = .ub := by
  have cs : Concrete (.leaf .string) := trivial
  have cd : Concrete (.option (.leaf .string)) := ⟨trivial, by simp, by simp⟩
  have hinst : ∀ g (rest : List ANode), instA g (.forward :: rest) = .ub := by
    intro g
    induction g with
    | zero => intro rest; rfl
    | succ g ih =>
      intro rest
      rw [instA, if_pos (show ANode.forward.alive = true from rfl)]
      exact ih rest
  cases fuel with
  | zero => rfl
  | succ f =>
    unfold assignKernel resolveA
    rw [assign_choice same (e := .optStr) (tbl_mem (by simp)) cd cs ⟨⟨_, rfl⟩, rfl⟩ (by simp) (by simp), Res.bind_ok]
    simp only [optStrNode]
    cases hm : modeOf false kw with
    | throw e => cases kw with
      | none => simp [modeOf] at hm
      | some o => cases o <;> simp [modeOf] at hm
    | ub => rfl
    | ok m =>
      rw [Res.bind_ok]
      cases f with
      | zero => rfl
      | succ f =>
        have hm' : modeOf true kw = .ok m := by
          cases kw with
          | none => simp [modeOf] at hm
          | some o => cases o <;> simpa [modeOf] using hm
        unfold resolveA
        rw [assign_choice same (e := .strStr) (tbl_mem (by simp)) cs cs ⟨rfl, rfl⟩ (by simp) (by simp), Res.bind_ok]
        simp only [hm', Res.bind_ok, assignNa_ok (t := .leaf .string) (by simp [HasNa]), Res.pure_eq]
        rw [hinst, Res.bind_ub]

/-- Optional integers of the widths without a missing value are rejected even between equal types. -/
theorem option_uint_rejected (same : List Nat → Bool) (kw : AKwds) {t : Ty} (hc : Concrete (.option t)) (hn : ¬ HasNa t)
    (fuel : Nat) :
    assignKernel same (assignTable.map some) kw (fuel + 1) (.option t) (.option t) = .throw .outOfRange := by
  unfold assignKernel resolveA
  rw [assign_choice same (e := .optOpt) (tbl_mem (by simp)) hc hc ⟨⟨_, rfl⟩, ⟨_, rfl⟩⟩ (by simp) (by simp), Res.bind_ok]
  have : ¬ (naTypes.any (tyEq t) = true) := by
    intro h
    obtain ⟨x, hx, he⟩ := List.any_eq_true.1 h
    rw [tyEq_iff] at he
    subst he; exact hn hx
  simp only [resolveIsNa]
  rw [if_neg this]; rfl

/-- Parsing an array of strings as booleans: the closure reads the source type from an array that no longer exists. -/
theorem array_of_bool_from_string_ub (same : List Nat → Bool) (om : Option AMode) (n : Int) (h0 : 0 ≤ n) (fuel : Nat) :
    assignKernel same (assignTable.map some) (some om) fuel (.fixedDim n (.prim .bool)) (.fixedDim n (.leaf .string)) =
      .ub := by
  have cs : Concrete (.leaf .string) := trivial
  have cb : Concrete (.prim .bool) := trivial
  have cd : Concrete (.fixedDim n (.prim .bool)) := ⟨h0, trivial⟩
  have ce : Concrete (.fixedDim n (.leaf .string)) := ⟨h0, trivial⟩
  have hm : ∀ b, modeOf b (some om) = .ok (callMode om) := by intro b; cases om <;> rfl
  cases fuel with
  | zero => rfl
  | succ f =>
    unfold assignKernel resolveA
    rw [assign_choice same (e := .elwDD) (tbl_mem (by simp)) cd ce (by exact ⟨trivial, trivial⟩) (by simp) (by simp),
      Res.bind_ok]
    simp only [resolveElw]
    rw [if_neg (by simp [Ty.ndim])]
    cases f with
    | zero =>
      unfold resolveDims
      simp [dimSizeOf, Ty.ndim, resolveDims, resolveA]
    | succ f =>
      have hv : resolveA same (assignTable.map some) (some om) (f + 1) false (.prim .bool) (.leaf .string) =
          .ok [.parseBool false (specMode (callMode om))] := by
        unfold resolveA
        rw [assign_choice same (e := .boolStr) (tbl_mem (by simp)) cb cs ⟨rfl, rfl⟩ (by simp) (by simp), Res.bind_ok]
        simp only [hm, Res.bind_ok, effMode_spec]; rfl
      have := dims_step (f := resolveA same (assignTable.map some) (some om) (f + 1) false) (.fixed n (.prim .bool))
        (.fixed n (.leaf .string)) rfl (Or.inl rfl) hv
      rw [this, Res.bind_ok]
      rw [instA, if_pos (by rfl)]
      · simp only [ANode.arity, instKids]
        rw [instA, if_neg (by simp [ANode.alive])]
        · rfl
        · simp
      · simp

theorem right_tuple_inv {m : AMode} {k : KTree} {ds ss : List Ty} (h : Right m k (.tuple ds false) (.tuple ss false)) :
    ∃ n ks, k = .mk n ks ∧
      ∀ (i : Nat) k d s, ks[i]? = some k → ds[i]? = some d → ss[i]? = some s → Right m k d s := by
  cases h with
  | tuple _ _ ks h1 h2 h3 => exact ⟨_, ks, rfl, h3⟩
  | dims _ _ _ _ _ _ _ hd => cases hd
  | bcast _ _ _ _ _ hd => cases hd

theorem right_tuple_field {m : AMode} {n : ANode} {ks : List KTree} {ds ss : List Ty}
    (h : Right m (.mk n ks) (.tuple ds false) (.tuple ss false)) (i : Nat) {k : KTree} {d s : Ty}
    (hk : ks[i]? = some k) (hd : ds[i]? = some d) (hs : ss[i]? = some s) : Right m k d s := by
  obtain ⟨n', ks', e, h3⟩ := right_tuple_inv h
  cases e
  exact h3 i k d s hk hd hs

/-- A string for an optional integer leaves nodes behind: in a tuple the next field gets the wrong kernel (here an
    integer field is filled by parsing the integer source as a string). -/
theorem option_int_in_tuple_wrong (same : List Nat → Bool) (om : Option AMode) (m : AMode) (fuel : Nat) :
    ∃ k, assignKernel same (assignTable.map some) (some om) (fuel + 3)
        (.tuple [.option (.prim (.int .w32)), .prim (.int .w64)] false)
        (.tuple [.leaf .string, .prim (.int .w64)] false) = .ok k ∧
      ¬ Right m k (.tuple [.option (.prim (.int .w32)), .prim (.int .w64)] false)
        (.tuple [.leaf .string, .prim (.int .w64)] false) := by
  have cs : Concrete (.leaf .string) := trivial
  have cl : Concrete (.prim (.int .w64)) := trivial
  have co : Concrete (.option (.prim (.int .w32))) := ⟨trivial, by simp, by simp⟩
  have cd : Concrete (.tuple [.option (.prim (.int .w32)), .prim (.int .w64)] false) := ⟨rfl, co, cl, trivial⟩
  have ce : Concrete (.tuple [.leaf .string, .prim (.int .w64)] false) := ⟨rfl, cs, cl, trivial⟩
  have hm : ∀ b, modeOf b (some om) = .ok (callMode om) := by intro b; cases om <;> rfl
  refine ⟨.mk (.record [0, 1]) [.mk (.optNumFromStr (.int .w32)) [], .mk (.parseInt .w32 (callMode om)) []], ?_, ?_⟩
  · have hv : ∀ f, resolveA same (assignTable.map some) (some om) (f + 1) true (.prim (.int .w32)) (.leaf .string) =
        .ok [.parseInt .w32 (callMode om)] := by
      intro f
      have ci : Concrete (.prim (.int .w32)) := trivial
      unfold resolveA
      rw [assign_choice same (e := .intStr .w32) (tbl_mem (by simp)) ci cs ⟨rfl, .inl rfl⟩ (by simp) (by simp), Res.bind_ok]
      simp only [hm, Res.bind_ok, effMode_spec]; rfl
    have ho : ∀ f, resolveA same (assignTable.map some) (some om) (f + 2) true (.option (.prim (.int .w32)))
        (.leaf .string) = .ok [.optNumFromStr (.int .w32), .parseInt .w32 (callMode om), .assignNa (.prim (.int .w32))] := by
      intro f
      unfold resolveA
      rw [assign_choice same (e := .optStr) (tbl_mem (by simp)) co cs ⟨⟨_, rfl⟩, rfl⟩ (by simp) (by simp), Res.bind_ok]
      simp only [hm, hv, Res.bind_ok, assignNa_ok (t := .prim (.int .w32)) (by simp [HasNa])]; rfl
    have hl : ∀ f, resolveA same (assignTable.map some) (some om) (f + 1) true (.prim (.int .w64)) (.prim (.int .w64)) =
        .ok [.cast (.int .w64) (.int .w64) (specMode (callMode om))] := by
      intro f
      unfold resolveA
      rw [assign_choice same (e := .num (.int .w64) (.int .w64)) (num_mem (by simp [IsNum]) (by simp [IsNum])) cl cl
        ⟨rfl, rfl⟩ (by simp) (by simp), Res.bind_ok]
      simp only [hm, Res.bind_ok, effMode_spec]; rfl
    unfold assignKernel resolveA
    rw [assign_choice same (e := .tupTup) (tbl_mem (by simp)) cd ce ⟨⟨_, _, rfl⟩, ⟨_, _, rfl⟩⟩ (by simp) (by simp),
      Res.bind_ok]
    simp only []
    rw [if_neg (by simp), if_neg (by simp)]
    simp only [resolveFields]
    rw [ho, hl]
    simp only [Res.bind_ok, Res.pure_eq]
    rw [inst_node rfl rfl (rest := _) (ks := [.mk (.optNumFromStr (.int .w32)) [], .mk (.parseInt .w32 (callMode om)) []])
      (kids_leaf rfl rfl rfl (kids_leaf rfl rfl rfl (c := 0) rfl))]
    rfl
  · intro h
    have := right_tuple_field h 1 rfl rfl rfl
    cases this

end Dynd
