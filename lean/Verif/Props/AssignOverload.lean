/-
Registering an overload of `nd::assign` that has nothing to do with options changes how options are assigned
(the order among the existing overloads is reversed by every registration).
-/
import Verif.Props.AssignFnProps

namespace Dynd

/-- `toHub` for a table with a user's overload on scalars -/
def AEntry.scalarSrcU : AEntry → Bool
  | .user _ _ => true
  | e => e.scalarSrc

/-- An overload for two scalar types the library knows no conversion for. -/
def catEntry (i j : Nat) : AEntry := .user (.leaf (.categorical i)) (.leaf (.categorical j))

theorem cat_handles {v : AEntry} (hv : v.builtin = true) (i j : Nat) :
    Handles v (.leaf (.categorical i)) (.leaf (.categorical j)) ↔ v.isValOpt = true := by
  cases v <;> first | exact Bool.noConfusion hv | simp [Handles, AEntry.isValOpt, IsDim]

theorem cat_pcs {fl : Bool} (p : PC) (i : Nat) : patMatch fl (.leaf (.categorical i)) p.ty = false := by
  have : ¬ (tyEq (.leaf (.categorical i)) p.ty = true) := by
    intro h
    rw [tyEq_iff] at h
    cases p <;> cases h
  simpa [patMatch] using this

theorem cat_sup (same : List Nat → Bool) {v : AEntry} (hv : v.builtin = true) (i j : Nat) :
    supercedes (tyMatch same) (catEntry i j).sig v.sig = v.isValOpt := by
  have h1 : Concrete (.leaf (.categorical i)) := trivial
  have h2 : Concrete (.leaf (.categorical j)) := trivial
  have := (handles_iff same hv h1 h2).trans (cat_handles hv i j)
  show supercedes (tyMatch same) [.leaf (.categorical i), .leaf (.categorical j)] v.sig = _
  cases hb : v.isValOpt
  · rw [hb] at this; simpa using this
  · exact this.2 hb

theorem cat_sup_rev (same : List Nat → Bool) {v : AEntry} (hv : v.builtin = true) (i j : Nat) :
    supercedes (tyMatch same) v.sig (catEntry i j).sig = false := by
  rw [sig_pcs hv]
  show (tyMatch same (.leaf (.categorical i)) v.pcs.1.ty && _) = false
  rw [tyMatch_pat same (.leaf _), cat_pcs]; rfl

theorem cat_con (same : List Nat → Bool) {v : AEntry} (hv : v.builtin = true) (i j : Nat) :
    consistent (tyMatch same) (catEntry i j).sig v.sig = v.isValOpt ∧
    consistent (tyMatch same) v.sig (catEntry i j).sig = v.isValOpt := by
  have h := cat_sup same hv i j
  rw [sig_pcs hv] at h ⊢
  have e : (catEntry i j).sig = [.leaf (.categorical i), .leaf (.categorical j)] := rfl
  rw [e] at h ⊢
  simp only [supercedes, Bool.and_true] at h
  simp only [consistent, tyMatch_pat same (.leaf _), cat_pcs, Bool.and_true, Bool.false_or, Bool.or_false]
  exact ⟨h, h⟩

theorem cat_self (same : List Nat → Bool) (i j : Nat) :
    supercedes (tyMatch same) (catEntry i j).sig (catEntry i j).sig = true := by
  show (tyMatch same (.leaf (.categorical i)) (.leaf (.categorical i)) &&
    (tyMatch same (.leaf (.categorical j)) (.leaf (.categorical j)) && true)) = true
  rw [tyMatch_pat same (.leaf _), tyMatch_pat same (.leaf _)]
  have : ∀ n, patMatch (same []) (.leaf (.categorical n)) (.leaf (.categorical n)) = true :=
    fun n => (tyEq_iff (.leaf (.categorical n)) _).2 rfl
  rw [this, this]; rfl

/-- The table after the overload has been registered: every overload but two is now tried in the opposite order. -/
def catTable (i j : Nat) : List AEntry :=
  catEntry i j :: .structStruct :: .f64Str :: .intStr .w64 :: .intStr .w16 :: .ptrPtr :: .strType :: .optStr :: .boolStr ::
    .strStr :: .fsStr :: .fsInt32 :: .strChar :: .charStr :: .fsFs :: .bytesBytes :: (numericPairs.reverse ++
  [.strStr, .fbFb, .fsFs, .fsFs, .typeType, .fsFs, .intStr .w32, .strFs, .optToVal, .optOpt, .optFloat, .typeStr,
    .intStr .w8, .intStr .w32, .f32Str, .tupTup, .elwSD, .elwDS, .valOpt, .elwDD])

set_option maxRecDepth 100000 in
theorem cat_order (i j : Nat) :
    (hubFinish AEntry.isValOpt AEntry.scalarSrcU .valOpt false (assignTable ++ [catEntry i j])).reverse = catTable i j := by
  rfl

theorem cat_table (same : List Nat → Bool) (i j : Nat) :
    insertAll same (assignTable.map some) [catEntry i j] = .ok ((catTable i j).map some) := by
  unfold insertAll
  rw [if_pos (by simp), filterMap_some]
  have mem : ∀ u ∈ assignTable ++ [catEntry i j], u.builtin = true ∨ u = catEntry i j := by
    intro u hu
    rcases List.mem_append.1 hu with h | h
    · exact .inl (table_builtin u h)
    · exact .inr (by simpa using h)
  have sc : ∀ {u : AEntry}, u.builtin = true → u.scalarSrcU = u.scalarSrc := by
    intro u hu; cases u <;> first | rfl | exact Bool.noConfusion hu
  rw [hub_dispAssign (isHub := AEntry.isValOpt) (toHub := AEntry.scalarSrcU) (hub := .valOpt)]
  · rw [cat_order]
  · intro u hu v hv
    rcases mem u hu with hu | rfl <;> rcases mem v hv with hv | rfl
    · exact entries_unambiguous same hu hv
    · unfold ambiguous
      rw [(cat_con same hu i j).2, cat_sup same hu, Bool.or_comm]
      cases u.isValOpt <;> simp
    · unfold ambiguous
      rw [(cat_con same hv i j).1, cat_sup same hv]
      cases v.isValOpt <;> simp
    · unfold ambiguous
      rw [cat_self]; simp
  · intro u hu v hv
    rcases mem u hu with hu | rfl <;> rcases mem v hv with hv | rfl
    · rw [sc hu]; exact entries_edge same hu hv
    · unfold edge
      rw [cat_sup_rev same hu]; rfl
    · unfold edge
      rw [cat_sup same hv, cat_sup_rev same hv]
      have e : (catEntry i j).scalarSrcU = true := rfl
      rw [e]
      cases v.isValOpt <;> simp
    · unfold edge
      rw [cat_self]; rfl
  · refine ⟨tableInit, [catEntry i j], by rw [table_split]; simp, rfl, rfl, ?_⟩
    intro v hv
    rcases List.mem_append.1 hv with h | h
    · exact init_specific v h
    · have : v = catEntry i j := by simpa using h
      subst this; rfl

/-- The overloads tried before the one that reads an optional value into a value. -/
def catBefore : List AEntry :=
  .structStruct :: .f64Str :: .intStr .w64 :: .intStr .w16 :: .ptrPtr :: .strType :: .optStr :: .boolStr ::
    .strStr :: .fsStr :: .fsInt32 :: .strChar :: .charStr :: .fsFs :: .bytesBytes :: (numericPairs.reverse ++
  [.strStr, .fbFb, .fsFs, .fsFs, .typeType, .fsFs, .intStr .w32, .strFs])

def entryNoOpt : AEntry → Bool
  | .optOpt | .optToVal | .valOpt | .user _ _ => false
  | _ => true

theorem catBefore_noOpt : ∀ e ∈ catBefore, entryNoOpt e = true := by
  have : catBefore.all entryNoOpt = true := by decide +kernel
  exact List.all_eq_true.1 this

theorem noOpt_handles {e : AEntry} (h : entryNoOpt e = true) (d s : Ty) : ¬ Handles e (.option d) (.option s) := by
  cases e <;> first | exact Bool.noConfusion h | simp [Handles, IsDim]

theorem cat_choice (same : List Nat → Bool) (i j : Nat) {d s : Ty} (hd : Concrete (.option d)) (hs : Concrete (.option s)) :
    dispCall (tyMatch same) AEntry.sig [.option d, .option s] ((catTable i j).map some) = .ok .optToVal := by
  have e : catTable i j = (catEntry i j :: catBefore) ++ (.optToVal :: [.optOpt, .optFloat, .typeStr,
    .intStr .w8, .intStr .w32, .f32Str, .tupTup, .elwSD, .elwDS, .valOpt, .elwDD]) := by
    unfold catTable catBefore
    simp only [List.cons_append, List.append_assoc, List.nil_append]
  rw [e, dispCall_skip]
  · have : supercedes (tyMatch same) [.option d, .option s] AEntry.optToVal.sig = true :=
      (handles_iff same rfl hd hs).2 (by simp [Handles, IsDim])
    rw [List.map_cons, dispCall, if_pos this]
  · intro x hx
    rcases List.mem_cons.1 hx with rfl | hx
    · show (tyMatch same (.leaf (.categorical i)) (.option d) && _) = false
      rw [tyMatch_pat same (.leaf _)]
      have : ¬ (tyEq (.leaf (.categorical i)) (.option d) = true) := by rw [tyEq_iff]; simp
      have e2 : patMatch (same []) (.leaf (.categorical i)) (.option d) = false := by simpa [patMatch] using this
      rw [e2]; rfl
    · have hn := catBefore_noOpt x hx
      have hb : x.builtin = true := by cases x <;> first | rfl | exact Bool.noConfusion hn
      have := mt (handles_iff same hb hd hs).1 (noOpt_handles hn d s)
      simpa using this

/-- Before the registration `option[d] ← option[s]` copies a missing value; afterwards the kernel that fails on a
    missing value is chosen, whatever `d` and `s` are. -/
theorem overload_breaks_options (same : List Nat → Bool) (i j : Nat) {d s : Ty} (hd : Concrete (.option d))
    (hs : Concrete (.option s)) :
    ∃ tbl tbl', makeAssign same = .ok tbl ∧ insertAll same tbl [catEntry i j] = .ok tbl' ∧
      dispCall (tyMatch same) AEntry.sig [.option d, .option s] tbl = .ok .optOpt ∧
      dispCall (tyMatch same) AEntry.sig [.option d, .option s] tbl' = .ok .optToVal :=
  ⟨_, _, assign_table same, cat_table same i j,
    assign_choice same (e := .optOpt) (tbl_mem (by simp)) hd hs ⟨⟨_, rfl⟩, ⟨_, rfl⟩⟩ (by simp) (by simp),
    cat_choice same i j hd hs⟩

/-- All overloads tried before `Any ← Scalar`. -/
def catFront : List AEntry :=
  .structStruct :: .f64Str :: .intStr .w64 :: .intStr .w16 :: .ptrPtr :: .strType :: .optStr :: .boolStr ::
    .strStr :: .fsStr :: .fsInt32 :: .strChar :: .charStr :: .fsFs :: .bytesBytes :: (numericPairs.reverse ++
  [.strStr, .fbFb, .fsFs, .fsFs, .typeType, .fsFs, .intStr .w32, .strFs, .optToVal, .optOpt, .optFloat, .typeStr,
    .intStr .w8, .intStr .w32, .f32Str, .tupTup, .elwSD, .elwDS])

theorem catFront_specific : ∀ e ∈ catFront, (!e.isValOpt && e.builtin) = true := by
  have : catFront.all (fun e => !e.isValOpt && e.builtin) = true := by decide +kernel
  exact List.all_eq_true.1 this

theorem cat_split (i j : Nat) : catTable i j = (catEntry i j :: catFront) ++ [.valOpt, .elwDD] := by
  unfold catTable catFront
  simp only [List.cons_append, List.append_assoc, List.nil_append]

theorem cat_no_user (same : List Nat → Bool) (i j : Nat) {d s : Ty} (h : d ≠ .leaf (.categorical i)) :
    supercedes (tyMatch same) [d, s] (catEntry i j).sig = false := by
  show (tyMatch same (.leaf (.categorical i)) d && _) = false
  rw [tyMatch_pat same (.leaf _)]
  have : ¬ (tyEq (.leaf (.categorical i)) d = true) := by rw [tyEq_iff]; exact fun e => h e.symm
  have e2 : patMatch (same []) (.leaf (.categorical i)) d = false := by simpa [patMatch] using this
  rw [e2]; rfl

/-- For optional integers: the kernel built after the registration is the one that fails on a missing value; it is
    not a right one, because nothing in it can produce a missing value. -/
theorem overload_breaks_option_int (same : List Nat → Bool) (i j : Nat) (om : Option AMode) (fuel : Nat) :
    ∃ k, assignKernel same ((catTable i j).map some) (some om) (fuel + 4) (.option (.prim (.int .w32)))
        (.option (.prim (.int .w32))) = .ok k ∧
      ∀ m, ¬ Right m k (.option (.prim (.int .w32))) (.option (.prim (.int .w32))) := by
  refine ⟨.mk .optCheck [.mk (.isNa (.prim (.int .w32))) [],
        .mk (.cast (.int .w32) (.int .w32) (specMode (callMode om))) []], ?_, ?_⟩
  rotate_left
  · intro m h
    cases h with
    | optVal _ _ _ h1 => exact absurd rfl (h1 _)
    | valOpt _ _ _ h1 => exact absurd rfl (h1 _)
  have co : Concrete (.option (.prim (.int .w32))) := ⟨trivial, by simp, by simp⟩
  have ci : Concrete (.prim (.int .w32)) := trivial
  have hm : ∀ b, modeOf b (some om) = .ok (callMode om) := by intro b; cases om <;> rfl
  have c1 : dispCall (tyMatch same) AEntry.sig [.option (.prim (.int .w32)), .prim (.int .w32)]
      ((catTable i j).map some) = .ok .valOpt := by
    rw [cat_split, dispCall_skip]
    · have : supercedes (tyMatch same) [.option (.prim (.int .w32)), .prim (.int .w32)] AEntry.valOpt.sig = true :=
        (handles_iff same rfl co ci).2 (by simp [Handles, IsDim])
      rw [List.map_cons, dispCall, if_pos this]
    · intro x hx
      rcases List.mem_cons.1 hx with rfl | hx
      · exact cat_no_user same i j (by simp)
      · have hn := catFront_specific x hx
        simp only [Bool.and_eq_true, Bool.not_eq_true'] at hn
        have : ¬ Handles x (.option (.prim (.int .w32))) (.prim (.int .w32)) := by
          intro hh
          obtain ⟨h1, h2⟩ := hn
          cases x <;> first | exact Bool.noConfusion h1 | exact Bool.noConfusion h2 | simp [Handles, IsDim] at hh
        have := mt (handles_iff same hn.2 co ci).1 this
        simpa using this
  have c2 : dispCall (tyMatch same) AEntry.sig [.prim (.int .w32), .prim (.int .w32)]
      ((catTable i j).map some) = .ok (.num (.int .w32) (.int .w32)) := by
    have e : catTable i j = [catEntry i j] ++ (catFront ++ [.valOpt, .elwDD]) := by rw [cat_split]; rfl
    rw [e, dispCall_skip _ _ (by intro x hx; rw [List.mem_singleton.1 hx]; exact cat_no_user same i j (by simp))]
    obtain ⟨x, hx, hs, he⟩ := dispCall_some (m := tyMatch same) (sig := AEntry.sig)
      (args := [.prim (.int .w32), .prim (.int .w32)]) catFront [.valOpt, .elwDD]
      ⟨.num (.int .w32) (.int .w32), by
        unfold catFront numericPairs
        simp only [List.mem_cons, List.mem_append, List.mem_reverse, List.mem_flatMap, List.mem_map]
        have : BTy.int .w32 ∈ numericTypes := by simp [numericTypes]
        exact .inr (.inr (.inr (.inr (.inr (.inr (.inr (.inr (.inr (.inr (.inr (.inr (.inr (.inr (.inr (.inl
          ⟨_, this, _, this, rfl⟩))))))))))))))),
        (handles_iff same rfl ci ci).2 ⟨rfl, rfl⟩⟩
    rw [he]
    have hn := catFront_specific x hx
    simp only [Bool.and_eq_true, Bool.not_eq_true'] at hn
    have hh := (handles_iff same hn.2 ci ci).1 hs
    obtain ⟨h1, h2⟩ := hn
    cases x <;> first
      | exact Bool.noConfusion h1
      | exact Bool.noConfusion h2
      | (obtain ⟨a, b⟩ := hh; cases a; cases b; rfl)
      | (simp [Handles, IsDim] at hh; done)
  have r2 : ∀ f b, resolveA same ((catTable i j).map some) (some om) (f + 1) b (.prim (.int .w32)) (.prim (.int .w32)) =
      .ok [.cast (.int .w32) (.int .w32) (specMode (callMode om))] := by
    intro f b
    unfold resolveA
    rw [c2, Res.bind_ok]
    simp only [hm, Res.bind_ok, effMode_spec]; rfl
  have r1 : ∀ f b, resolveA same ((catTable i j).map some) (some om) (f + 2) b (.option (.prim (.int .w32)))
      (.prim (.int .w32)) = .ok [.cast (.int .w32) (.int .w32) (specMode (callMode om))] := by
    intro f b
    unfold resolveA
    rw [c1, Res.bind_ok]
    simp only [unOption]
    exact r2 f false
  unfold assignKernel resolveA
  rw [cat_choice same i j co co, Res.bind_ok]
  simp only [isNa_ok (t := .prim (.int .w32)) (by simp [HasNa]), Res.bind_ok, r1, Res.pure_eq]
  rw [List.singleton_append, inst_node rfl rfl (rest := _) (ks := [.mk (.isNa (.prim (.int .w32))) [],
      .mk (.cast (.int .w32) (.int .w32) (specMode (callMode om))) []])
      (kids_leaf rfl rfl rfl (kids_leaf rfl rfl rfl (c := 0) rfl))]
  rfl

end Dynd
