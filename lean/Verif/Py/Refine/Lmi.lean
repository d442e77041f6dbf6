import Verif.Py.Lists

/-!
# The text of `lmi_oracle.py`, `lmi0_oracle.py` and `lmi_old_oracle.py` computes what `Model/RoundedLmi` says
-/

set_option linter.unusedSimpArgs false

namespace Ellalgo.Py

open CuttingPlane

variable {W : Type} {m q : ℕ}

/-- Where an LMI oracle and its data are: the object at `l`, its `LDLTMgr` at `lm` with arrays at `lw` and `ls`, the matrices at `lf k`, the constant matrix (if there is one). -/
structure LmiCells (m q : ℕ) where
  cls : String
  l : ℕ
  lm : ℕ
  lw : ℕ
  ls : ℕ
  lf : Fin q → ℕ
  matF : Fin q → Mat m
  b : Option (ℕ × Mat m)

/-- The locations that the oracle reads but never writes. -/
def LmiCells.data (D : LmiCells m q) (k : ℕ) : Prop := k = D.l ∨ (∃ i, k = D.lf i) ∨ ∃ p, D.b = some p ∧ k = p.1

/-- The locations of the oracle. -/
def LmiCells.own (D : LmiCells m q) (k : ℕ) : Prop := D.data k ∨ mgrCells D.lm D.lw D.ls k

/-- The attributes of an LMI oracle. -/
structure IsLmi (D : LmiCells m q) (attrs : Env) : Prop where
  matF : attrs "mat_f" = some (.list (List.ofFn fun k => .ref (D.lf k)))
  matB : attrs "mat_f0" = D.b.map fun p => .ref p.1
  mgr : attrs "ldlt_mgr" = some (.ref D.lm)
  only : ∀ a ∉ ["mat_f", "mat_f0", "ldlt_mgr"], attrs a = none

/-- The object and the matrices. -/
structure LmiData (D : LmiCells m q) (st : St W) : Prop where
  obj : ∃ attrs, st.heap D.l = some (.inst D.cls attrs) ∧ IsLmi D attrs
  F : ∀ k, st.heap (D.lf k) = some (.square m (toArr2 (D.matF k)))
  B : ∀ p, D.b = some p → st.heap p.1 = some (.square m (toArr2 p.2))
  lt : ∀ k, D.data k → k < st.next
  apart : ∀ k, D.data k → ¬ mgrCells D.lm D.lw D.ls k

theorem LmiData.mono {D : LmiCells m q} {st st' : St W} (h : LmiData D st) (hn : st.next ≤ st'.next) (hs : ∀ k, D.data k → st'.heap k = st.heap k) : LmiData D st' := by
  obtain ⟨⟨attrs, hl, ha⟩, hF, hB, hlt, hap⟩ := h
  exact ⟨⟨attrs, (hs _ (.inl rfl)).trans hl, ha⟩, fun k => (hs _ (.inr (.inl ⟨k, rfl⟩))).trans (hF k), fun p hp => (hs _ (.inr (.inr ⟨p, hp, rfl⟩))).trans (hB p hp), fun k hk => (hlt k hk).trans_le hn, hap⟩

theorem LmiData.step {D : LmiCells m q} {own : ℕ → Prop} {st st' : St W} (h : LmiData D st) (hs : Step own st st') (ho : ∀ k, own k → mgrCells D.lm D.lw D.ls k) : LmiData D st' :=
  h.mono hs.next fun k hk => hs.same k (h.lt k hk) fun hk' => h.apart k hk (ho k hk')

/-- An LMI oracle. -/
structure LmiAt (D : LmiCells m q) (st : St W) (o : LDLTMgr ℝ) : Prop where
  data : LmiData D st
  mgr : MgrAt st D.lm D.lw D.ls o
  dim : LDLTMgr.ndim o = m

theorem square_toArr2 (M : Mat m) : Obj.square m (toArr2 M) = .mat m m (Matrix.of.symm M) := by
  simp only [Obj.square, toArr2, Fin.is_lt, and_self, dite_true]
  rfl

theorem lmi_oracleAt (D : LmiCells m q) (hc : D.cls ∉ spaceClasses) : OracleAt (fun _ : St W => D.own) (LmiAt D) where
  bound h k hk := by
    rcases hk with hk | rfl | rfl | rfl
    exacts [h.data.lt k hk, h.mgr.ltl, h.mgr.ltw, h.mgr.lts]
  foreign h k hk cls attrs hh := by
    obtain ⟨attrs0, h0, -⟩ := h.data.obj
    obtain ⟨attrs1, h1, -⟩ := h.mgr.obj
    rcases hk with (rfl | ⟨i, rfl⟩ | ⟨p, hp, rfl⟩) | rfl | rfl | rfl
    · rw [h0] at hh; simp only [Option.some.injEq, Obj.inst.injEq] at hh; rw [← hh.1]; exact hc
    · rw [h.data.F] at hh; simp [Obj.square] at hh
    · rw [h.data.B p hp] at hh; simp [Obj.square] at hh
    · rw [h1] at hh; simp only [Option.some.injEq, Obj.inst.injEq] at hh; rw [← hh.1]; decide
    · rw [h.mgr.wit] at hh; simp [Obj.line] at hh
    · rw [h.mgr.storage] at hh; simp [Obj.square] at hh
  stable {st st' o} h hf := by
    refine ⟨⟨h.data.mono hf.next fun k hk => hf.same k (h.data.lt k hk) (not_not.mpr (.inl hk)), h.mgr.mono hf.next fun k hk => hf.same k ?_ (not_not.mpr (.inr hk)), h.dim⟩, fun k hk => hk⟩
    rcases hk with rfl | rfl | rfl
    exacts [h.mgr.ltl, h.mgr.ltw, h.mgr.lts]

/-! ### What the three oracles share: the factorisation has failed or not -/

theorem factorLoop_pos (A : Arith) (elem : ℕ → ℕ → ℝ) (len i : ℕ) (s : ℕ → ℕ → ℝ) (r : List (ℕ × ℕ)) :
    (A.factorLoop elem len i s r).2.1.1 ≤ (A.factorLoop elem len i s r).2.1.2 ∧ (A.factorLoop elem len i s r).2.1.2 ≤ i + len
    ∧ ((A.factorLoop elem len i s r).2.1.2 ≠ 0 → (A.factorLoop elem len i s r).2.1.1 < (A.factorLoop elem len i s r).2.1.2) := by
  induction len generalizing i s r with
  | zero => simp [Arith.factorLoop]
  | succ len ih =>
    rw [Arith.factorLoop]
    by_cases h : (A.row elem 0 i s r).diag ≤ 0
    · rw [if_pos h]; dsimp only; omega
    · rw [if_neg h]
      have := ih (i + 1) (A.row elem 0 i s r).storage (A.row elem 0 i s r).reads
      omega

theorem factor_pos (A : Arith) (mgr : LDLTMgr ℝ) (elem : ℕ → ℕ → ℝ) :
    (A.factor mgr elem).1.pos.1 ≤ (A.factor mgr elem).1.pos.2 ∧ (A.factor mgr elem).1.pos.2 ≤ mgr.ndim
    ∧ ((A.factor mgr elem).1.pos.2 ≠ 0 → (A.factor mgr elem).1.pos.1 < (A.factor mgr elem).1.pos.2) := by
  have := factorLoop_pos A elem mgr.ndim 0 mgr.storage []
  rw [Nat.zero_add] at this
  exact this

theorem factor_ndim (A : Arith) (mgr : LDLTMgr ℝ) (elem : ℕ → ℕ → ℝ) : (A.factor mgr elem).1.ndim = mgr.ndim := rfl

/-- `witness` after a failed factorisation. -/
theorem witness_ok (A : Arith) (mgr : LDLTMgr ℝ) (h : mgr.pos.2 ≠ 0) : ∃ w, A.witness mgr = ({ mgr with wit := w }, .ok (-mgr.storage (mgr.pos.2 - 1) (mgr.pos.2 - 1))) := by
  rw [Arith.witness, if_neg (by simp [LDLTMgr.isSpd, h])]
  exact ⟨_, rfl⟩

section

variable {A : Arith} {ext : ℕ → String → List Val → M W Val} {fuel : ℕ} {D : LmiCells m q}

/-- `self.ldlt_mgr.witness()` after a failed `self.ldlt_mgr.factor(..)`. -/
theorem lmi_witness (hA : Literals A) {st : St W} {mgr : LDLTMgr ℝ} (h : LmiAt D st mgr) (hp : mgr.pos.2 ≠ 0) (hp' : mgr.pos.1 < mgr.pos.2 ∧ mgr.pos.2 ≤ mgr.ndim) :
    ∃ st' ep mgr', A.witness mgr = (mgr', .ok ep) ∧ call (mach A ext) (fuel + 2) (.meth (.ref D.lm) "witness") [] st = .ok (.num ep) st' ∧ LmiAt D st' mgr' ∧ mgr'.pos = mgr.pos
      ∧ Frame (mgrCells D.lm D.lw D.ls) st st' := by
  obtain ⟨st', h1, h2, h3⟩ := mgr_witness (A := A) (ext := ext) (fuel := fuel) hA h.mgr fun _ => hp'
  obtain ⟨w, hw⟩ := witness_ok A mgr hp
  rw [hw] at h1 h2
  have hf : Frame (mgrCells D.lm D.lw D.ls) st st' := h3.mono fun k hk => .inr (.inl hk)
  exact ⟨st', _, _, hw, h1, ⟨h.data.step hf.step fun _ h => h, h2, h.dim⟩, rfl, hf⟩

end

/-! ### `LMIOracle` -/

/-- `LMIOracle` as an oracle of the loops. -/
noncomputable def lmiOmegaA (A : Arith) (matF : Fin q → Mat m) (matB : Mat m) : OracleFeas (LDLTMgr ℝ) (Vec q) (Cut q) := fun mgr x =>
  ((A.lmiAssess matF matB mgr x).1, (A.lmiAssess matF matB mgr x).2.map fun r => r.map fun c => (c.1, .scalar c.2))

/-- The body of the function that a statement defines. -/
def fnBody : List PStmt → List PStmt
  | .fn _ _ b :: _ => b
  | _ => []

section

variable {A : Arith} {ext : ℕ → String → List Val → M W Val} {fuel : ℕ} {D : LmiCells m q}

/-- `get_elem` of `LMIOracle.assess_feas`. -/
theorem lmi_getter (hA : Literals A) {lb : ℕ} {matB : Mat m} (hb : D.b = some (lb, matB)) {lx : ℕ} {x : Vec q} (hx : ¬ (lx = D.lm ∨ lx = D.ls)) :
    Getter A ext (fuel + 2) m (.clos ["i", "j"] (fnBody Source.LmiOracle.LMIOracle.assess_feas.body) ((Env.empty.set "self" (.ref D.l)).set "xc" (.ref lx))) (A.lmiElem D.matF matB x) (fun k => k = D.lm ∨ k = D.ls)
      (fun _ st => LmiData D st ∧ st.heap lx = some (.vec q x) ∧ lx < st.next) where
  get {r st i j} h hi hj := by
    obtain ⟨h, hlx, hlt⟩ := h
    obtain ⟨attrs, hl, ha⟩ := h.obj
    have h1 := ha.matF
    have h2 := ha.matB
    rw [hb] at h2
    have i1 := item_square (h.B _ hb) hi hj
    have hm : ∀ k : Fin q, getItem (.ref (D.lf k)) [.pos (i : ℤ), .pos (j : ℤ)] st = .ok (.num (toArr2 (D.matF k) i j)) st := fun k => item_square (h.F k) hi hj
    obtain ⟨v, hs, hv⟩ := sum_nums (st := st) (fun k : Fin q => A.mul (toArr2 (D.matF k) i j) (x k)) (isNum_zero hA)
    refine ⟨.num (A.lmiElem D.matF matB x i j), st, ?_, .num A _, ⟨h, hlx, hlt⟩, .refl _ _⟩
    rw [call_clos]
    simp only [fnBody, Source.LmiOracle.LMIOracle.assess_feas]
    simp only [py, hl, h1, h2, hlx, zipWith_ofFn]
    rw [mapList_same (b := fun k => Val.num (A.mul (toArr2 (D.matF k) i j) (x k))) fun k => by simp only [py, hm]]
    simp only [py, hs, h2, Option.map, i1, hl]
    rw [binOp_right hv.1 (by decide)]
    rfl
  keep h hf := ⟨h.1.step hf.step fun _ h => h.elim .inl fun h => .inr (.inr h), (hf.same lx h.2.2 hx).trans h.2.1, h.2.2.trans_le hf.next⟩

/-- `[self.ldlt_mgr.sym_quad(Fk) for Fk in ..]` after `witness`. -/
theorem lmi_quad {st : St W} {o : LDLTMgr ℝ} (h : LmiAt D st o) (h1 : o.pos.1 ≤ o.pos.2) (h2 : o.pos.2 ≤ o.ndim) (k : Fin q) :
    ∃ st', call (mach A ext) (fuel + 2) (.meth (.ref D.lm) "sym_quad") [.ref (D.lf k)] st = .ok (.num (A.symQuad o (toArr2 (D.matF k)))) st' ∧ LmiAt D st' o ∧ Frame (fun _ => False) st st' := by
  have hF : st.heap (D.lf k) = some (.square o.ndim (toArr2 (D.matF k))) := (h.data.F k).trans (congrArg (fun d => some (Obj.square d (toArr2 (D.matF k)))) h.dim.symm)
  obtain ⟨st', h3, h4⟩ := mgr_sym_quad (A := A) (ext := ext) (fuel := fuel) h.mgr h1 h2 hF (h.data.lt _ (.inr (.inl ⟨k, rfl⟩)))
  exact ⟨st', h3, ⟨h.data.step h4.step nofun, h.mgr.frame h4 nofun, h.dim⟩, h4⟩

/-- The list of the values of `sym_quad`, or of an expression that uses it. -/
theorem lmi_quads {st : St W} {o : LDLTMgr ℝ} (h : LmiAt D st o) (h1 : o.pos.1 ≤ o.pos.2) (h2 : o.pos.2 ≤ o.ndim) {f : Val → M W Val} {a : Fin q → Val} {y : Fin q → ℝ}
    (hf : ∀ k st st' attrs attrm, st.heap D.l = some (.inst D.cls attrs) → IsLmi D attrs → st.heap D.lm = some (.inst "LDLTMgr" attrm) → attrm "sym_quad" = none →
      call (mach A ext) (fuel + 3) (.meth (.ref D.lm) "sym_quad") [.ref (D.lf k)] st = .ok (.num (A.symQuad o (toArr2 (D.matF k)))) st' → f (a k) st = .ok (.num (y k)) st') :
    ∃ st', mapList f (List.ofFn a) st = .ok (List.ofFn fun k => .num (y k)) st' ∧ LmiAt D st' o ∧ Frame (fun _ => False) st st' := by
  refine mapList_step (fun st => LmiAt D st o) (fun k st h => ?_) h
  obtain ⟨st', h3, h4, h5⟩ := lmi_quad (A := A) (ext := ext) (fuel := fuel + 1) h h1 h2 k
  obtain ⟨attrs, hl, ha⟩ := h.data.obj
  obtain ⟨attrm, hlm, ham⟩ := h.mgr.obj
  exact ⟨st', hf k st st' attrs attrm hl ha hlm (ham.only _ (by decide)) h3, h4, h5⟩

/-- The state after the array `g` has been made. -/
theorem lmi_cut {st t1 t2 t3 : St W} {o : LDLTMgr ℝ} (h : LmiAt D t3 o) (h1 : Moves (fun _ : St W => D.own) st t1) (h2 : Frame (mgrCells D.lm D.lw D.ls) t1 t2) (h3 : Frame (fun _ => False) t2 t3) (g : Vec q) (ep : ℝ) {free : Prop} :
    LmiAt D (t3.alloc (.vec q g)) o ∧ Moves (fun _ : St W => D.own) st (t3.alloc (.vec q g)) ∧ IsCut (t3.alloc (.vec q g)) (g, .scalar ep) (.tuple [.ref t3.next, .num ep])
      ∧ (free ∨ OwnCut (fun _ : St W => D.own) st (t3.alloc (.vec q g)) (.tuple [.ref t3.next, .num ep])) := by
  have hf : Frame (fun _ => False) t3 (t3.alloc (.vec q g)) := (Frame.refl (fun _ => False) t3).alloc _
  refine ⟨⟨h.data.step hf.step nofun, h.mgr.frame hf nofun, h.dim⟩, ⟨h1.1.trans ((h2.step.mono fun k hk => .inr hk).trans ((h3.step.mono nofun).trans (hf.step.mono nofun))), fun k hk => .inl hk⟩,
    ⟨t3.next, .num ep, rfl, ?_, ?_, ?_⟩, .inr fun lg vb hl => .inr ?_⟩
  · simp only [py]; omega
  · simp only [py]
  · exact .scalar ep
  · simp only [Val.tuple.injEq, List.cons.injEq, Val.ref.injEq] at hl
    rw [← hl.1]
    exact h1.1.next.trans (h2.next.trans h3.next)

theorem lmi_has (hc : ∃ f, ellalgo.method? D.cls "assess_feas" = some f ∧ f.isProperty = false) {st : St W} {o : LDLTMgr ℝ} (h : LmiAt D st o) : Has (mach A ext) (.ref D.l) "assess_feas" st := by
  intro cl
  obtain ⟨attrs, hl, ha⟩ := h.data.obj
  obtain ⟨f, hf, hp⟩ := hc
  have := ha.only "assess_feas" (by decide)
  simp only [py, hl, this, hf, hp]

theorem lmi_assess (hA : Literals A) (hc : D.cls = "LMIOracle") {lb : ℕ} {matB : Mat m} (hb : D.b = some (lb, matB)) {free : Prop} :
    FeasOracle A ext (fuel + 4) (.ref D.l) (fun _ => D.own) (lmiOmegaA A D.matF matB) (LmiAt D (W := W)) free where
  toOracleAt := lmi_oracleAt D (by rw [hc]; decide)
  has h := lmi_has (by rw [hc]; exact ⟨_, rfl, rfl⟩) h
  assess {st o lx x} h hx hlx := by
    obtain ⟨attrs, hl, ha⟩ := h.data.obj
    rw [hc] at hl
    obtain ⟨attrm, hlm, ham⟩ := h.mgr.obj
    have hxm : ¬ (lx = D.lm ∨ lx = D.ls) := by
      rintro (rfl | rfl)
      · rw [hlm] at hx; simp at hx
      · rw [h.mgr.storage] at hx; simp [Obj.square] at hx
    obtain ⟨t1, h1, hm1, ⟨hd1, -, -⟩, hst1⟩ := mgr_factor (lmi_getter (A := A) (ext := ext) (fuel := fuel) hA hb hxm) hA h.mgr h.dim.symm ⟨h.data, hx, hlx⟩
    have hfa := ham.only "factor" (by decide)
    have hmgr := ha.mgr
    have hmv : Moves (fun _ : St W => D.own) st t1 := ⟨hst1.mono fun k hk => .inr (hk.elim .inl fun h => .inr (.inr h)), fun k hk => .inl hk⟩
    rw [lmiOmegaA, Arith.lmiAssess]
    set r := A.factor o (A.lmiElem D.matF matB x) with hr
    by_cases hs : r.2.1 = true
    · rw [if_pos hs]
      refine ⟨t1, ?_, ⟨hd1, hm1, h.dim⟩, hmv⟩
      rw [call_meth hl method_LMIOracle_assess_feas rfl]
      simp only [fnBody, Source.LmiOracle.LMIOracle.assess_feas] at h1 ⊢
      simp only [py, hl, hmgr, hlm, hfa, h1, hs]
    · rw [if_neg hs]
      have hp0 : r.1.pos.2 ≠ 0 := by simpa [hr, Arith.factor, LDLTMgr.isSpd] using hs
      obtain ⟨p1, p2, p3⟩ := factor_pos A o (A.lmiElem D.matF matB x)
      obtain ⟨t2, ep, o2, hw, h2, hl2, hpos2, hst2⟩ := lmi_witness (A := A) (ext := ext) (fuel := fuel + 1) hA (⟨hd1, hm1, h.dim⟩ : LmiAt D t1 r.1) hp0 ⟨p3 hp0, p2⟩
      have hdim2 : o2.ndim = o.ndim := hl2.dim.trans h.dim.symm
      rw [hw]
      obtain ⟨attrs2, hlo2, ha2⟩ := hl2.data.obj
      rw [hc] at hlo2
      obtain ⟨attrs1, hlo1, ha1⟩ := hd1.obj
      rw [hc] at hlo1
      obtain ⟨attrm1, hlm1, ham1⟩ := hm1.obj
      have hwi := ham1.only "witness" (by decide)
      have hmgr1 := ha1.mgr
      have hF := ha2.matF
      set env : Env := (((Env.empty.set "self" (.ref D.l)).set "xc" (.ref lx)).set "get_elem" (.clos ["i", "j"] (fnBody Source.LmiOracle.LMIOracle.assess_feas.body) ((Env.empty.set "self" (.ref D.l)).set "xc" (.ref lx)))).set "ep" (.num ep) with henv
      obtain ⟨t3, h3, hl3, hst3⟩ := lmi_quads (A := A) (ext := ext) (fuel := fuel) hl2 (hpos2 ▸ p1) (hpos2 ▸ hdim2 ▸ p2) (a := fun k => .ref (D.lf k)) (y := fun k => A.symQuad o2 (toArr2 (D.matF k)))
        (f := fun w => M.bind (bindNames ["Fk"] w env) fun env' => eval (mach A ext) (call (mach A ext) (fuel + 3)) env' (.call (.attr (.attr (.name "self") "ldlt_mgr") "sym_quad") [.name "Fk"]))
        (fun k st st' attrs attrm h1 h2 h3 h4 h5 => by have := h2.mgr; simp only [henv, py, h1, this, h3, h4, h5])
      refine ⟨.tuple [.ref t3.next, .num ep], t3.alloc (.vec q fun k => A.symQuad o2 (toArr2 (D.matF k))), ?_, lmi_cut hl3 hmv hst2 hst3 _ ep⟩
      rw [call_meth hl method_LMIOracle_assess_feas rfl]
      rw [henv] at h3
      simp only [fnBody, Source.LmiOracle.LMIOracle.assess_feas] at h1 h3 ⊢
      simp only [py, hl, hmgr, hlm, hfa, h1, hs, hlo1, hmgr1, hlm1, hwi, h2, hlo2, hF, h3, builtin_array]

end

/-! ### `LMI0Oracle` -/

/-- `LMI0Oracle` as an oracle of the loops. -/
noncomputable def lmi0OmegaA (A : Arith) (matF : Fin q → Mat m) : OracleFeas (LDLTMgr ℝ) (Vec q) (Cut q) := fun mgr x =>
  ((A.lmi0Assess matF mgr x).1, (A.lmi0Assess matF mgr x).2.map fun r => r.map fun c => (c.1, .scalar c.2))

section

variable {A : Arith} {ext : ℕ → String → List Val → M W Val} {fuel : ℕ} {D : LmiCells m q}

/-- `get_elem` of `LMI0Oracle.assess_feas`. -/
theorem lmi0_getter (hA : Literals A) {lx : ℕ} {x : Vec q} (hx : ¬ (lx = D.lm ∨ lx = D.ls)) :
    Getter A ext (fuel + 2) m (.clos ["i", "j"] (fnBody Source.Lmi0Oracle.LMI0Oracle.assess_feas.body) ((Env.empty.set "self" (.ref D.l)).set "x" (.ref lx))) (A.lmi0Elem D.matF x) (fun k => k = D.lm ∨ k = D.ls)
      (fun _ st => LmiData D st ∧ st.heap lx = some (.vec q x) ∧ lx < st.next) where
  get {r st i j} h hi hj := by
    obtain ⟨h, hlx, hlt⟩ := h
    obtain ⟨attrs, hl, ha⟩ := h.obj
    have h1 := ha.matF
    have hm : ∀ k : Fin q, getItem (.ref (D.lf k)) [.pos (i : ℤ), .pos (j : ℤ)] st = .ok (.num (toArr2 (D.matF k) i j)) st := fun k => item_square (h.F k) hi hj
    have hk : ∀ k : Fin q, getItem (.list (List.ofFn fun k => .ref (D.lf k))) [.pos ((k : ℕ) : ℤ)] st = .ok (.ref (D.lf k)) st := fun k => item_list _ k
    have hxk : ∀ k : Fin q, getItem (.ref lx) [.pos ((k : ℕ) : ℤ)] st = .ok (.num (x k)) st := fun k => item_vec hlx k
    obtain ⟨v, hs, hv⟩ := sum_nums (st := st) (fun k : Fin q => A.mul (toArr2 (D.matF k) i j) (x k)) (isNum_zero hA)
    refine ⟨v, st, ?_, hv, ⟨h, hlx, hlt⟩, .refl _ _⟩
    rw [call_clos]
    simp only [fnBody, Source.Lmi0Oracle.LMI0Oracle.assess_feas]
    simp only [py, hl, h1, hlx, Int.toNat_natCast, ints_ofFn]
    rw [mapList_same (b := fun k => Val.num (A.mul (toArr2 (D.matF k) i j) (x k))) fun k => by simp only [py, hl, h1, hk, hm, hxk]]
    simp only [py, hs]
  keep h hf := ⟨h.1.step hf.step fun _ h => h.elim .inl fun h => .inr (.inr h), (hf.same lx h.2.2 hx).trans h.2.1, h.2.2.trans_le hf.next⟩

theorem lmi0_assess (hA : Literals A) (hc : D.cls = "LMI0Oracle") {free : Prop} :
    FeasOracle A ext (fuel + 4) (.ref D.l) (fun _ => D.own) (lmi0OmegaA A D.matF) (LmiAt D (W := W)) free where
  toOracleAt := lmi_oracleAt D (by rw [hc]; decide)
  has h := lmi_has (by rw [hc]; exact ⟨_, rfl, rfl⟩) h
  assess {st o lx x} h hx hlx := by
    obtain ⟨attrs, hl, ha⟩ := h.data.obj
    rw [hc] at hl
    obtain ⟨attrm, hlm, ham⟩ := h.mgr.obj
    have hxm : ¬ (lx = D.lm ∨ lx = D.ls) := by
      rintro (rfl | rfl)
      · rw [hlm] at hx; simp at hx
      · rw [h.mgr.storage] at hx; simp [Obj.square] at hx
    obtain ⟨t1, h1, hm1, ⟨hd1, -, -⟩, hst1⟩ := mgr_factor (lmi0_getter (A := A) (ext := ext) (fuel := fuel) hA hxm) hA h.mgr h.dim.symm ⟨h.data, hx, hlx⟩
    have hfa := ham.only "factor" (by decide)
    have hmgr := ha.mgr
    have hmv : Moves (fun _ : St W => D.own) st t1 := ⟨hst1.mono fun k hk => .inr (hk.elim .inl fun h => .inr (.inr h)), fun k hk => .inl hk⟩
    rw [lmi0OmegaA, Arith.lmi0Assess]
    set r := A.factor o (A.lmi0Elem D.matF x) with hr
    by_cases hs : r.2.1 = false
    · rw [if_pos hs]
      have hp0 : r.1.pos.2 ≠ 0 := by simpa [hr, Arith.factor, LDLTMgr.isSpd] using hs
      obtain ⟨p1, p2, p3⟩ := factor_pos A o (A.lmi0Elem D.matF x)
      obtain ⟨t2, ep, o2, hw, h2, hl2, hpos2, hst2⟩ := lmi_witness (A := A) (ext := ext) (fuel := fuel + 1) hA (⟨hd1, hm1, h.dim⟩ : LmiAt D t1 r.1) hp0 ⟨p3 hp0, p2⟩
      have hdim2 : o2.ndim = o.ndim := hl2.dim.trans h.dim.symm
      rw [hw]
      obtain ⟨attrs2, hlo2, ha2⟩ := hl2.data.obj
      rw [hc] at hlo2
      obtain ⟨attrs1, hlo1, ha1⟩ := hd1.obj
      rw [hc] at hlo1
      obtain ⟨attrm1, hlm1, ham1⟩ := hm1.obj
      have hwi := ham1.only "witness" (by decide)
      have hmgr1 := ha1.mgr
      have hF := ha2.matF
      set env : Env := (((Env.empty.set "self" (.ref D.l)).set "x" (.ref lx)).set "get_elem" (.clos ["i", "j"] (fnBody Source.Lmi0Oracle.LMI0Oracle.assess_feas.body) ((Env.empty.set "self" (.ref D.l)).set "x" (.ref lx)))).set "ep" (.num ep) with henv
      obtain ⟨t3, h3, hl3, hst3⟩ := lmi_quads (A := A) (ext := ext) (fuel := fuel) hl2 (hpos2 ▸ p1) (hpos2 ▸ hdim2 ▸ p2) (a := fun k => .ref (D.lf k)) (y := fun k => -A.symQuad o2 (toArr2 (D.matF k)))
        (f := fun w => M.bind (bindNames ["Fk"] w env) fun env' => eval (mach A ext) (call (mach A ext) (fuel + 3)) env' (.neg (.call (.attr (.attr (.name "self") "ldlt_mgr") "sym_quad") [.name "Fk"])))
        (fun k st st' attrs attrm h1 h2 h3 h4 h5 => by have := h2.mgr; simp only [henv, py, h1, this, h3, h4, h5])
      refine ⟨.tuple [.ref t3.next, .num ep], t3.alloc (.vec q fun k => -A.symQuad o2 (toArr2 (D.matF k))), ?_, lmi_cut hl3 hmv hst2 hst3 _ ep⟩
      rw [call_meth hl method_LMI0Oracle_assess_feas rfl]
      rw [henv] at h3
      simp only [fnBody, Source.Lmi0Oracle.LMI0Oracle.assess_feas] at h1 h3 ⊢
      simp only [py, hl, hmgr, hlm, hfa, h1, hs, hlo1, hmgr1, hlm1, hwi, h2, hlo2, hF, h3, builtin_array]
    · rw [if_neg hs]
      refine ⟨t1, ?_, ⟨hd1, hm1, h.dim⟩, hmv⟩
      rw [call_meth hl method_LMI0Oracle_assess_feas rfl]
      simp only [fnBody, Source.Lmi0Oracle.LMI0Oracle.assess_feas] at h1 ⊢
      simp only [py, hl, hmgr, hlm, hfa, h1, hs]

end

/-! ### `LMIOldOracle` -/

/-- `LMIOldOracle` as an oracle of the loops. -/
noncomputable def lmiOldOmegaA (A : Arith) (matF : Fin q → Mat m) (matB : Mat m) : OracleFeas (LDLTMgr ℝ) (Vec q) (Cut q) := fun mgr x =>
  ((A.lmiOldAssess matF matB mgr x).1, (A.lmiOldAssess matF matB mgr x).2.map fun r => r.map fun c => (c.1, .scalar c.2))

section

variable {A : Arith} {ext : ℕ → String → List Val → M W Val} {fuel : ℕ} {D : LmiCells m q}

theorem LmiAt.frame {st st' : St W} {o : LDLTMgr ℝ} (h : LmiAt D st o) (hf : Frame (fun _ => False) st st') : LmiAt D st' o :=
  ⟨h.data.step hf.step nofun, h.mgr.frame hf nofun, h.dim⟩

/-- `A = self.mat_f0.copy()`, `A -= sum(self.mat_f[k] * xc[k] for k in range(n))`, up to the calls of the manager. -/
theorem lmiOld_matrix (hA : Literals A) (matB : Mat m) {st : St W} {o : LDLTMgr ℝ} {lx : ℕ} {x : Vec q} (h : LmiAt D st o) (hx : st.heap lx = some (.vec q x)) (hlx : lx < st.next)
    (env : Env) (hs : env "self" = some (.ref D.l)) (hxc : env "xc" = some (.ref lx)) :
    ∃ v t1 t2, mapList (fun w => M.bind (bindNames ["k"] w env) fun env' => eval (mach A ext) (call (mach A ext) (fuel + 3)) env' (.bin .mul (.index (.attr (.name "self") "mat_f") [.name "k"]) (.index (.name "xc") [.name "k"])))
        (List.ofFn fun k : Fin q => Val.int ((k : ℕ) : ℤ)) (st.alloc (.mat m m (Matrix.of.symm matB))) = .ok (List.ofFn fun k : Fin q => Val.ref (st.next + 1 + (k : ℕ))) t1
      ∧ sumFrom A (.int 0) (List.ofFn fun k : Fin q => Val.ref (st.next + 1 + (k : ℕ))) t1 = .ok v t2
      ∧ augOp A .sub (.ref st.next) v t2 = .ok (.ref st.next) (t2.put st.next (.square m (toArr2 fun i j => A.sub (matB i j) (A.psum (fun k => D.matF k i j) x))))
      ∧ LmiAt D (t2.put st.next (.square m (toArr2 fun i j => A.sub (matB i j) (A.psum (fun k => D.matF k i j) x)))) o
      ∧ Frame (fun _ => False) st (t2.put st.next (.square m (toArr2 fun i j => A.sub (matB i j) (A.psum (fun k => D.matF k i j) x)))) ∧ st.next < t2.next := by
  set t0 := st.alloc (.mat m m (Matrix.of.symm matB)) with ht0
  have hf0 : Frame (fun _ => False) st t0 := (Frame.refl (fun _ => False) st).alloc _
  have n0 : t0.next = st.next + 1 := next_alloc _
  obtain ⟨t1, h1, hO, -, hf1, n1⟩ := mapList_alloc (st := t0) (a := fun k : Fin q => Val.int ((k : ℕ) : ℤ)) (O := fun k => .mat m m fun i j => A.mul (D.matF k i j) (x k))
    (f := fun w => M.bind (bindNames ["k"] w env) fun env' => eval (mach A ext) (call (mach A ext) (fuel + 3)) env' (.bin .mul (.index (.attr (.name "self") "mat_f") [.name "k"]) (.index (.name "xc") [.name "k"])))
    (fun st' => Frame (fun _ => False) st st') (fun k st' hf => by
      obtain ⟨attrs, hl, ha⟩ := (h.frame hf).data.obj
      have h1 := ha.matF
      have h2 := (h.frame hf).data.F k
      rw [square_toArr2] at h2
      have h3 : getItem (.list (List.ofFn fun k => .ref (D.lf k))) [.pos ((k : ℕ) : ℤ)] st' = .ok (.ref (D.lf k)) st' := item_list _ k
      have h4 := item_vec ((hf.same lx hlx not_false).trans hx) k
      refine ⟨?_, hf.alloc _⟩
      simp only [py, hs, hxc, hl, h1, h3, h4, h2]
      rfl) hf0
  rw [n0] at h1 hO n1
  obtain ⟨v, t2, h2, hv, hf2⟩ := sum_mats (st := t1) hA (fun k i j => A.mul (D.matF k i j) (x k)) (st.next + 1) (v := .int 0) (S := fun _ _ => 0) (.inl ⟨rfl, rfl⟩) hO n1.ge
  have hl2 : t2.heap st.next = some (.mat m m (Matrix.of.symm matB)) := by
    rw [hf2.same _ (by omega) not_false, hf1.same _ (by omega) not_false]
    exact heap_alloc_self _
  have h3 := aug_sub_acc hA hv hl2
  have he : Obj.mat m m (fun i j => A.sub (Matrix.of.symm matB i j) (Fin.foldl q (fun s k => A.add s (A.mul (D.matF k i j) (x k))) 0)) = .square m (toArr2 fun i j => A.sub (matB i j) (A.psum (fun k => D.matF k i j) x)) := by
    exact (square_toArr2 (m := m) (fun i j => A.sub (matB i j) (A.psum (fun k => D.matF k i j) x))).symm
  rw [he] at h3
  have hf3 := (hf0.trans (hf1.trans hf2)).put (.square m (toArr2 fun i j => A.sub (matB i j) (A.psum (fun k => D.matF k i j) x))) (l := st.next) (.inr le_rfl)
  exact ⟨v, t1, t2, h1, h2, h3, h.frame hf3, hf3, by have := hf2.next; omega⟩

theorem lmiOld_assess (hA : Literals A) (hc : D.cls = "LMIOldOracle") {lb : ℕ} {matB : Mat m} (hb : D.b = some (lb, matB)) {free : Prop} :
    FeasOracle A ext (fuel + 4) (.ref D.l) (fun _ => D.own) (lmiOldOmegaA A D.matF matB) (LmiAt D (W := W)) free where
  toOracleAt := lmi_oracleAt D (by rw [hc]; decide)
  has h := lmi_has (by rw [hc]; exact ⟨_, rfl, rfl⟩) h
  assess {st o lx x} h hx hlx := by
    obtain ⟨attrs, hl, ha⟩ := h.data.obj
    rw [hc] at hl
    have hB := h.data.B _ hb
    rw [square_toArr2] at hB
    have hf0 := ha.matB
    rw [hb] at hf0
    obtain ⟨v, s1, s2, g1, g2, g3, hl0, hfr0, hn0⟩ := lmiOld_matrix (A := A) (ext := ext) (fuel := fuel) hA matB h hx hlx
      ((((Env.empty.set "self" (.ref D.l)).set "xc" (.ref lx)).set "n" (.int q)).set "A" (.ref st.next)) (by simp only [py]) (by simp only [py])
    set t0 := s2.put st.next (.square m (toArr2 fun i j => A.sub (matB i j) (A.psum (fun k => D.matF k i j) x))) with ht0
    simp only [Nat.add_assoc] at g1 g2
    obtain ⟨attrs0, hlo0, ha0⟩ := hl0.data.obj
    rw [hc] at hlo0
    have hmgr0 := ha0.mgr
    obtain ⟨attrm0, hlm0, ham0⟩ := hl0.mgr.obj
    have hfa0 := ham0.only "factorize" (by decide)
    obtain ⟨t1, h1, hm1, hst1⟩ := mgr_factorize (A := A) (ext := ext) (fuel := fuel) hA hl0.mgr (k := st.next) (f := toArr2 fun i j => A.sub (matB i j) (A.psum (fun k => D.matF k i j) x))
      ((heap_put_self _ _).trans (congrArg (fun d => some (Obj.square d _)) h.dim.symm)) hn0 (by
        rintro (hk | hk | hk)
        exacts [absurd h.mgr.ltl (by omega), absurd h.mgr.ltw (by omega), absurd h.mgr.lts (by omega)])
    have hd1 : LmiData D t1 := hl0.data.step hst1 fun k hk => hk.elim .inl fun h => .inr (.inr h)
    have hmv : Moves (fun _ : St W => D.own) st t1 := ⟨(hfr0.step.mono nofun).trans (hst1.mono fun k hk => .inr (hk.elim .inl fun h => .inr (.inr h))), fun k hk => .inl hk⟩
    rw [lmiOldOmegaA, Arith.lmiOldAssess]
    set r := A.factor o (toArr2 fun i j => A.sub (matB i j) (A.psum (fun k => D.matF k i j) x)) with hr
    clear_value t0
    by_cases hs : r.2.1 = false
    · rw [if_pos hs]
      have hp0 : r.1.pos.2 ≠ 0 := by simpa [hr, Arith.factor, LDLTMgr.isSpd] using hs
      obtain ⟨p1, p2, p3⟩ := factor_pos A o (toArr2 fun i j => A.sub (matB i j) (A.psum (fun k => D.matF k i j) x))
      obtain ⟨t2, ep, o2, hw, h2, hl2, hpos2, hst2⟩ := lmi_witness (A := A) (ext := ext) (fuel := fuel + 1) hA (⟨hd1, hm1, h.dim⟩ : LmiAt D t1 r.1) hp0 ⟨p3 hp0, p2⟩
      have hdim2 : o2.ndim = o.ndim := hl2.dim.trans h.dim.symm
      rw [hw]
      obtain ⟨attrs1, hlo1, ha1⟩ := hd1.obj
      rw [hc] at hlo1
      obtain ⟨attrm1, hlm1, ham1⟩ := hm1.obj
      have hwi := ham1.only "witness" (by decide)
      have hmgr1 := ha1.mgr
      set env : Env := (((((Env.empty.set "self" (.ref D.l)).set "xc" (.ref lx)).set "n" (.int q)).set "A" (.ref st.next)).set "A" (.ref st.next)).set "ep" (.num ep) with henv
      obtain ⟨t3, h3, hl3, hst3⟩ := lmi_quads (A := A) (ext := ext) (fuel := fuel) hl2 (hpos2 ▸ p1) (hpos2 ▸ hdim2 ▸ p2) (a := fun k : Fin q => Val.int ((k : ℕ) : ℤ)) (y := fun k => A.symQuad o2 (toArr2 (D.matF k)))
        (f := fun w => M.bind (bindNames ["i"] w env) fun env' => eval (mach A ext) (call (mach A ext) (fuel + 3)) env' (.call (.attr (.attr (.name "self") "ldlt_mgr") "sym_quad") [.index (.attr (.name "self") "mat_f") [.name "i"]]))
        (fun k st st' attrs attrm h1 h2 h3 h4 h5 => by
          have e1 := h2.mgr
          have e2 := h2.matF
          have e3 : getItem (.list (List.ofFn fun k => .ref (D.lf k))) [.pos ((k : ℕ) : ℤ)] st = .ok (.ref (D.lf k)) st := item_list _ k
          simp only [henv, py, h1, e1, e2, e3, h3, h4, h5])
      refine ⟨.tuple [.ref t3.next, .num ep], t3.alloc (.vec q fun k => A.symQuad o2 (toArr2 (D.matF k))), ?_, lmi_cut hl3 hmv hst2 hst3 _ ep⟩
      rw [call_meth hl method_LMIOldOracle_assess_feas rfl]
      rw [henv] at h3
      simp only [Source.LmiOldOracle.LMIOldOracle.assess_feas]
      simp only [py, hl, hx, hf0, hB, Option.map, Int.toNat_natCast, ints_ofFn, g1, g2, g3, hlo0, hmgr0, hlm0, hfa0, h1, hs, hlo1, hmgr1, hlm1, hwi, h2, h3, builtin_array]
    · rw [if_neg hs]
      refine ⟨t1, ?_, ⟨hd1, hm1, h.dim⟩, hmv⟩
      rw [call_meth hl method_LMIOldOracle_assess_feas rfl]
      simp only [Source.LmiOldOracle.LMIOldOracle.assess_feas]
      simp only [py, hl, hx, hf0, hB, Option.map, Int.toNat_natCast, ints_ofFn, g1, g2, g3, hlo0, hmgr0, hlm0, hfa0, h1, hs]

end

/-! ### Construction -/

/-- The matrices, before the oracle is made. -/
structure MatsAt (st : St W) (lf : Fin q → ℕ) (matF : Fin q → Mat m) (b : Option (ℕ × Mat m)) : Prop where
  F : ∀ k, st.heap (lf k) = some (.square m (toArr2 (matF k)))
  B : ∀ p, b = some p → st.heap p.1 = some (.square m (toArr2 p.2))
  ltF : ∀ k, lf k < st.next
  ltB : ∀ p, b = some p → p.1 < st.next

/-- The attributes that `__init__` sets. -/
def lmiAttrs (lf : Fin q → ℕ) (lm : ℕ) (b : Option (ℕ × Mat m)) : Env :=
  match b with
  | some p => ((Env.empty.set "mat_f" (.list (List.ofFn fun k => .ref (lf k)))).set "mat_f0" (.ref p.1)).set "ldlt_mgr" (.ref lm)
  | none => (Env.empty.set "mat_f" (.list (List.ofFn fun k => .ref (lf k)))).set "ldlt_mgr" (.ref lm)

theorem isLmi_attrs (cls : String) (l lm lw ls : ℕ) (lf : Fin q → ℕ) (matF : Fin q → Mat m) (b : Option (ℕ × Mat m)) : IsLmi ⟨cls, l, lm, lw, ls, lf, matF, b⟩ (lmiAttrs lf lm b) := by
  cases b with
  | none =>
    refine ⟨by simp only [lmiAttrs, py], by simp only [lmiAttrs, py]; rfl, by simp only [lmiAttrs, py], fun a ha => ?_⟩
    simp only [List.mem_cons, List.not_mem_nil, or_false, not_or] at ha
    simp only [lmiAttrs, py, ha]
  | some p =>
    refine ⟨by simp only [lmiAttrs, py], by simp only [lmiAttrs, py]; rfl, by simp only [lmiAttrs, py], fun a ha => ?_⟩
    simp only [List.mem_cons, List.not_mem_nil, or_false, not_or] at ha
    simp only [lmiAttrs, py, ha]

/-- The oracle after `__init__`: `t` is the state when the object was made and its first attributes were set, `t1` that after `LDLTMgr(..)`. -/
theorem lmi_made (cls : String) {st t t1 : St W} {lf : Fin q → ℕ} {matF : Fin q → Mat m} {b : Option (ℕ × Mat m)} (h : MatsAt st lf matF b) (hn : t.next = st.next + 1) (hs : Frame (fun _ => False) st t)
    {lw ls : ℕ} (hm : MgrAt t1 t.next lw ls (LDLTMgr.init m)) (hw : t.next ≤ lw) (hl : t.next ≤ ls) (hf : Frame (fun _ => False) t t1) :
    LmiAt ⟨cls, st.next, t.next, lw, ls, lf, matF, b⟩ (t1.put st.next (.inst cls (lmiAttrs lf t.next b))) (LDLTMgr.init m)
      ∧ Frame (fun _ => False) st (t1.put st.next (.inst cls (lmiAttrs lf t.next b))) := by
  have hf1 : Frame (fun _ => False) st (t1.put st.next (.inst cls (lmiAttrs lf t.next b))) := (hs.trans hf).put _ (.inr le_rfl)
  have hn1 := hf.next
  refine ⟨⟨⟨⟨_, heap_put_self _ _, isLmi_attrs _ _ _ _ _ _ _ _⟩, fun k => (hf1.same _ (h.ltF k) not_false).trans (h.F k), fun p hp => (hf1.same _ (h.ltB p hp) not_false).trans (h.B p hp), ?_, ?_⟩,
    hm.mono le_rfl fun k hk => ?_, rfl⟩, hf1⟩
  · rintro k (rfl | ⟨i, rfl⟩ | ⟨p, hp, rfl⟩)
    · show st.next < t1.next; omega
    · exact (h.ltF i).trans_le hf1.next
    · exact (h.ltB p hp).trans_le hf1.next
  · rintro k (rfl | ⟨i, rfl⟩ | ⟨p, hp, rfl⟩) (hk | hk | hk) <;> dsimp only at *
    any_goals omega
    · have := h.ltF i; omega
    · have := h.ltF i; omega
    · have := h.ltF i; omega
    · have := h.ltB p hp; omega
    · have := h.ltB p hp; omega
    · have := h.ltB p hp; omega
  · have : k ≠ st.next := by rcases hk with rfl | rfl | rfl <;> omega
    simp only [py, this]

section

variable {A : Arith} {ext : ℕ → String → List Val → M W Val} {fuel : ℕ}

/-- `LMIOracle(mat_f, mat_b)`. -/
theorem lmi_init {st : St W} {lf : Fin q → ℕ} {matF : Fin q → Mat m} {lb : ℕ} {matB : Mat m} (h : MatsAt st lf matF (some (lb, matB))) :
    ∃ st' lm lw ls, call (mach A ext) (fuel + 3) (.glob "LMIOracle") [.list (List.ofFn fun k => .ref (lf k)), .ref lb] st = .ok (.ref st.next) st'
      ∧ LmiAt ⟨"LMIOracle", st.next, lm, lw, ls, lf, matF, some (lb, matB)⟩ st' (LMIOracle.init matB) ∧ st.next ≤ lw ∧ Frame (fun _ => False) st st' := by
  set t := st.alloc (.inst "LMIOracle" ((Env.empty.set "mat_f" (.list (List.ofFn fun k => .ref (lf k)))).set "mat_f0" (.ref lb))) with ht
  have hft : Frame (fun _ => False) st t := (Frame.refl (fun _ => False) st).alloc _
  have hnt : t.next = st.next + 1 := rfl
  obtain ⟨t1, lw, ls, h1, hm, hw, hl, hf⟩ := new_mgr (A := A) (ext := ext) (fuel := fuel) m (st := t)
  obtain ⟨h2, h3⟩ := lmi_made "LMIOracle" h hnt hft hm hw hl hf
  refine ⟨_, _, _, _, ?_, h2, by omega, h3⟩
  have hB : t.heap lb = some (.mat m m (Matrix.of.symm matB)) := by rw [hft.same _ (h.ltB _ rfl) not_false, h.B _ rfl, square_toArr2]
  have hl1 : t1.heap st.next = some (.inst "LMIOracle" ((Env.empty.set "mat_f" (.list (List.ofFn fun k => .ref (lf k)))).set "mat_f0" (.ref lb))) := by
    rw [hf.same _ (by omega) not_false]; exact heap_alloc_self _
  clear_value t
  rw [call_class fun_LMIOracle class_LMIOracle rfl rfl]
  simp only [Source.LmiOracle.LMIOracle.__init__]
  simp only [py, ← ht, hB, h1, hl1, lmiAttrs]

/-- `LMIOldOracle(mat_f, mat_b)`. -/
theorem lmiOld_init {st : St W} {lf : Fin q → ℕ} {matF : Fin q → Mat m} {lb : ℕ} {matB : Mat m} (h : MatsAt st lf matF (some (lb, matB))) :
    ∃ st' lm lw ls, call (mach A ext) (fuel + 3) (.glob "LMIOldOracle") [.list (List.ofFn fun k => .ref (lf k)), .ref lb] st = .ok (.ref st.next) st'
      ∧ LmiAt ⟨"LMIOldOracle", st.next, lm, lw, ls, lf, matF, some (lb, matB)⟩ st' (LMIOldOracle.init matB) ∧ st.next ≤ lw ∧ Frame (fun _ => False) st st' := by
  set t := st.alloc (.inst "LMIOldOracle" ((Env.empty.set "mat_f" (.list (List.ofFn fun k => .ref (lf k)))).set "mat_f0" (.ref lb))) with ht
  have hft : Frame (fun _ => False) st t := (Frame.refl (fun _ => False) st).alloc _
  have hnt : t.next = st.next + 1 := rfl
  obtain ⟨t1, lw, ls, h1, hm, hw, hl, hf⟩ := new_mgr (A := A) (ext := ext) (fuel := fuel) m (st := t)
  obtain ⟨h2, h3⟩ := lmi_made "LMIOldOracle" h hnt hft hm hw hl hf
  refine ⟨_, _, _, _, ?_, h2, by omega, h3⟩
  have hB : t.heap lb = some (.mat m m (Matrix.of.symm matB)) := by rw [hft.same _ (h.ltB _ rfl) not_false, h.B _ rfl, square_toArr2]
  have hl1 : t1.heap st.next = some (.inst "LMIOldOracle" ((Env.empty.set "mat_f" (.list (List.ofFn fun k => .ref (lf k)))).set "mat_f0" (.ref lb))) := by
    rw [hf.same _ (by omega) not_false]; exact heap_alloc_self _
  clear_value t
  rw [call_class fun_LMIOldOracle class_LMIOldOracle rfl rfl]
  simp only [Source.LmiOldOracle.LMIOldOracle.__init__]
  simp only [py, ← ht, hB, h1, hl1, lmiAttrs]

/-- `LMI0Oracle(mat_f)`: `IndexError` if the list is empty. -/
theorem lmi0_init {st : St W} {lf : Fin q → ℕ} {matF : Fin q → Mat m} (h : MatsAt st lf matF none) :
    ∃ st', match LMI0Oracle.init matF with
      | .error f => call (mach A ext) (fuel + 3) (.glob "LMI0Oracle") [.list (List.ofFn fun k => .ref (lf k))] st = .exc (excOf f) st' ∧ Frame (fun _ => False) st st'
      | .ok o => call (mach A ext) (fuel + 3) (.glob "LMI0Oracle") [.list (List.ofFn fun k => .ref (lf k))] st = .ok (.ref st.next) st'
        ∧ (∃ lm lw ls, LmiAt ⟨"LMI0Oracle", st.next, lm, lw, ls, lf, matF, none⟩ st' o ∧ st.next ≤ lw) ∧ Frame (fun _ => False) st st' := by
  set t := st.alloc (.inst "LMI0Oracle" (Env.empty.set "mat_f" (.list (List.ofFn fun k => .ref (lf k))))) with ht
  have hft : Frame (fun _ => False) st t := (Frame.refl (fun _ => False) st).alloc _
  have hnt : t.next = st.next + 1 := rfl
  rw [LMI0Oracle.init]
  rcases q with - | q
  · refine ⟨t, ?_, hft⟩
    rw [call_class fun_LMI0Oracle class_LMI0Oracle rfl rfl]
    simp only [Source.Lmi0Oracle.LMI0Oracle.__init__]
    simp only [py, List.ofFn_zero] at ht ⊢
    simp only [py, ← ht, getItem, normIdx, excOf]
  · obtain ⟨t1, lw, ls, h1, hm, hw, hl, hf⟩ := new_mgr (A := A) (ext := ext) (fuel := fuel) m (st := t)
    obtain ⟨h2, h3⟩ := lmi_made "LMI0Oracle" h hnt hft hm hw hl hf
    refine ⟨_, ?_, ⟨_, _, _, h2, by omega⟩, h3⟩
    have hF : t.heap (lf 0) = some (.mat m m (Matrix.of.symm (matF 0))) := by rw [hft.same _ (h.ltF 0) not_false, h.F 0, square_toArr2]
    have hl1 : t1.heap st.next = some (.inst "LMI0Oracle" (Env.empty.set "mat_f" (.list (List.ofFn fun k => .ref (lf k))))) := by
      rw [hf.same _ (by omega) not_false]; exact heap_alloc_self _
    have h0 : getItem (.list (List.ofFn fun k => .ref (lf k))) [.pos 0] t = .ok (.ref (lf 0)) t := item_list _ 0
    clear_value t
    rw [call_class fun_LMI0Oracle class_LMI0Oracle rfl rfl]
    simp only [Source.Lmi0Oracle.LMI0Oracle.__init__]
    simp only [py, ← ht, h0, hF, h1, hl1, lmiAttrs]

end

end Ellalgo.Py
