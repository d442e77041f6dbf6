import Verif.Py.Refine.Profit
import Verif.Py.Refine.ConjGrad
import Verif.Model.RoundedLowpass

/-!
# The text of `lowpass_oracle.py`, `LowpassOracle`, computes what `Model/RoundedLowpass` says
-/

set_option linter.unusedSimpArgs false

namespace Ellalgo.Py

open CuttingPlane

variable {W : Type} {A : Arith} {ext : ℕ → String → List Val → M W Val} {fuel : ℕ} {st : St W} {n : ℕ}

/-! ### Comparisons, rows and negative arrays -/

theorem cmp_gt_real {v : Val} {x y : ℝ} (h : v.toReal = some y) : cmpOp .gt (.num x) v st = .ok (.bool (decide (x > y))) st := by
  cases v <;> simp [Val.toReal] at h <;> subst h <;> rfl

theorem cmp_lt_lit (x : ℝ) : cmpOp .lt (.num x) (.int 0) st = .ok (.bool (decide (x < 0))) st := by
  have : Val.toReal (.int 0) = some 0 := by simp [Val.toReal]
  simp only [cmpOp, toReal_num, this, ordOp]; rfl

/-- The negative of what was found on the heap. -/
noncomputable def negArr (o : Option Obj) : M W Val :=
  match o with
  | some (.vec n x) => allocObj (.vec n fun i => -x i)
  | some (.mat r c x) => allocObj (.mat r c fun i j => -x i j)
  | some (.cvec n x) => allocObj (.cvec n fun i => -x i)
  | _ => M.stuck

@[py] theorem neg_ref (l : ℕ) : negOp (.ref l) st = negArr (st.heap l) st := by
  simp only [negOp, bind_apply, getObj_eq]
  cases st.heap l with
  | none => rfl
  | some o => cases o <;> rfl
@[py] theorem negArr_vec (x : Vec n) : negArr (some (.vec n x)) st = .ok (.ref st.next) (st.alloc (.vec n (-x))) := rfl
@[py] theorem negArr_cvec (x : Fin n → ℂ) : negArr (some (.cvec n x)) st = .ok (.ref st.next) (st.alloc (.cvec n (-x))) := rfl

@[py] theorem toIdx_all : toIdx (.tuple [.str "slice", .none, .none]) st = .ok (.slice none none) st := rfl

theorem item_row {r c l : ℕ} {x : ℕ → Vec c} (h : st.heap l = some (.mat r c fun i j => x i j)) (k : ℕ) :
    getItem (.ref l) [.pos (k : ℤ), .slice none none] st = if k < r then .ok (.ref st.next) (st.alloc (.vec c (x k))) else .exc "IndexError" st := by
  simp only [getItem, bind_apply, getObj_eq, h, readObj_some, rbind_ok]
  by_cases hk : k < r
  · have h1 : normIdx r k = some k := by simp [normIdx, hk]
    have h2 : sliceRange (W := W) c none none st = .ok (0, c) st := by simp [sliceRange, M.pure]
    rw [if_pos hk, h1]
    simp only [orIndexError, pure_apply, rbind_ok, bind_apply, h2, allocObj_apply]
    congr 2
    show Obj.vec c _ = Obj.vec c _
    congr 1
    funext j
    simp [Arith.slice, at2, at1, hk]
  · have h1 : normIdx r k = none := by simp [normIdx, hk]
    rw [if_neg hk, h1]
    rfl

/-! ### The object -/

/-- Minus infinity or a number. -/
noncomputable def botVal (y : WithBot ℝ) : Val := y.recBotCoe .ninf Val.num

theorem botVal_bot : botVal ⊥ = .ninf := rfl
theorem botVal_coe (x : ℝ) : botVal x = .num x := rfl

theorem cmp_gt_bot (x : ℝ) (y : WithBot ℝ) : cmpOp .gt (.num x) (botVal y) st = .ok (.bool (decide ((x : WithBot ℝ) > y))) st := by
  induction y with
  | bot =>
    have : decide ((x : WithBot ℝ) > ⊥) = true := by simp
    rw [this]; rfl
  | coe y =>
    have : decide ((x : WithBot ℝ) > y) = decide (x > y) := by simp
    rw [this]; rfl

/-- The attributes of a `LowpassOracle` whose matrix is at `lsp`; the bound for the stopband is the value `vsp`. -/
noncomputable def lowAttrs (lsp : ℕ) (vsp : Val) (o : LowpassOracle n) : Env :=
  ((((((((((Env.empty.set "spectrum" (.ref lsp)).set "nwpass" (.int o.nwpass)).set "nwstop" (.int o.nwstop)).set "lp_sq" (.num o.lpSq)).set "up_sq" (.num o.upSq)).set "sp_sq" vsp).set "idx1" (.int o.idx1)).set "idx2" (.int o.idx2)).set
    "idx3" (.int o.idx3)).set "fmax" (botVal o.fmax)).set "kmax" (.int o.kmax)

section

variable (lsp : ℕ) (vsp : Val) (o : LowpassOracle n)

@[py] theorem low_spectrum : lowAttrs lsp vsp o "spectrum" = some (.ref lsp) := by simp only [lowAttrs, py]
@[py] theorem low_nwpass : lowAttrs lsp vsp o "nwpass" = some (.int o.nwpass) := by simp only [lowAttrs, py]
@[py] theorem low_nwstop : lowAttrs lsp vsp o "nwstop" = some (.int o.nwstop) := by simp only [lowAttrs, py]
@[py] theorem low_lp : lowAttrs lsp vsp o "lp_sq" = some (.num o.lpSq) := by simp only [lowAttrs, py]
@[py] theorem low_up : lowAttrs lsp vsp o "up_sq" = some (.num o.upSq) := by simp only [lowAttrs, py]
@[py] theorem low_sp : lowAttrs lsp vsp o "sp_sq" = some vsp := by simp only [lowAttrs, py]
@[py] theorem low_idx1 : lowAttrs lsp vsp o "idx1" = some (.int o.idx1) := by simp only [lowAttrs, py]
@[py] theorem low_idx2 : lowAttrs lsp vsp o "idx2" = some (.int o.idx2) := by simp only [lowAttrs, py]
@[py] theorem low_idx3 : lowAttrs lsp vsp o "idx3" = some (.int o.idx3) := by simp only [lowAttrs, py]
@[py] theorem low_fmax : lowAttrs lsp vsp o "fmax" = some (botVal o.fmax) := by simp only [lowAttrs, py]
@[py] theorem low_kmax : lowAttrs lsp vsp o "kmax" = some (.int o.kmax) := by simp only [lowAttrs, py]
@[py] theorem low_nofeas : lowAttrs lsp vsp o "assess_feas" = none := by simp only [lowAttrs, py]
@[py] theorem low_nooptim : lowAttrs lsp vsp o "assess_optim" = none := by simp only [lowAttrs, py]

theorem low_set_idx1 (k : ℕ) : (lowAttrs lsp vsp o).set "idx1" (.int k) = lowAttrs lsp vsp { o with idx1 := k } := by
  funext a
  by_cases h : a = "idx1"
  · subst h; simp only [py]
  · simp only [lowAttrs, Env.set, h, if_false]
theorem low_set_idx2 (k : ℕ) : (lowAttrs lsp vsp o).set "idx2" (.int k) = lowAttrs lsp vsp { o with idx2 := k } := by
  funext a
  by_cases h : a = "idx2"
  · subst h; simp only [py]
  · simp only [lowAttrs, Env.set, h, if_false]
theorem low_set_idx3 (k : ℕ) : (lowAttrs lsp vsp o).set "idx3" (.int k) = lowAttrs lsp vsp { o with idx3 := k } := by
  funext a
  by_cases h : a = "idx3"
  · subst h; simp only [py]
  · simp only [lowAttrs, Env.set, h, if_false]
theorem low_set_fmax (y : WithBot ℝ) : (lowAttrs lsp vsp o).set "fmax" (botVal y) = lowAttrs lsp vsp { o with fmax := y } := by
  funext a
  by_cases h : a = "fmax"
  · subst h; simp only [py]
  · simp only [lowAttrs, Env.set, h, if_false]
theorem low_set_kmax (k : ℕ) : (lowAttrs lsp vsp o).set "kmax" (.int k) = lowAttrs lsp vsp { o with kmax := k } := by
  funext a
  by_cases h : a = "kmax"
  · subst h; simp only [py]
  · simp only [lowAttrs, Env.set, h, if_false]
theorem low_set_sp (v : Val) (g : ℝ) : (lowAttrs lsp vsp o).set "sp_sq" v = lowAttrs lsp v { o with spSq := g } := by
  funext a
  by_cases h : a = "sp_sq"
  · subst h; simp only [py]
  · simp only [lowAttrs, Env.set, h, if_false]

end

/-- A `LowpassOracle` at `l` in the state `o`, with its matrix at `lsp`. -/
structure LowAt (A : Arith) (l lsp : ℕ) (st : St W) (o : LowpassOracle n) : Prop where
  obj : ∃ vsp, st.heap l = some (.inst "LowpassOracle" (lowAttrs lsp vsp o)) ∧ IsNum A o.spSq vsp
  mat : st.heap lsp = some (.mat o.mdim n fun i j => o.spectrum i j)
  lt : l < st.next
  ltm : lsp < st.next

/-- The locations of a `LowpassOracle`. -/
def lowOwn (l lsp : ℕ) (_ : St W) (k : ℕ) : Prop := k = l ∨ k = lsp

section

variable {l lsp lx : ℕ} {o o' : LowpassOracle n} {x : Vec n}

theorem LowAt.ne (h : LowAt A l lsp st o) : lsp ≠ l := by
  rintro rfl
  obtain ⟨vsp, hl, -⟩ := h.obj
  have := h.mat
  rw [hl] at this; simp at this

theorem LowAt.nex (h : LowAt A l lsp st o) (hx : st.heap lx = some (.vec n x)) : lx ≠ l := by
  rintro rfl
  obtain ⟨vsp, hl, -⟩ := h.obj
  rw [hl] at hx; simp at hx

theorem LowAt.mono {st' : St W} (h : LowAt A l lsp st o) (hn : st.next ≤ st'.next) (h1 : st'.heap l = st.heap l) (h2 : st'.heap lsp = st.heap lsp) : LowAt A l lsp st' o := by
  obtain ⟨⟨vsp, hl, hs⟩, hm, hlt, hltm⟩ := h
  exact ⟨⟨vsp, h1.trans hl, hs⟩, h2.trans hm, hlt.trans_le hn, hltm.trans_le hn⟩

theorem LowAt.alloc (h : LowAt A l lsp st o) (ob : Obj) : LowAt A l lsp (st.alloc ob) o :=
  h.mono (Nat.le_succ _) (heap_alloc_ne h.lt.ne ob) (heap_alloc_ne h.ltm.ne ob)

/-- New attributes. -/
theorem LowAt.write (h : LowAt A l lsp st o) {vsp : Val} (hm : o'.mdim = o.mdim) (hs : o'.spectrum = o.spectrum) (hv : IsNum A o'.spSq vsp) :
    LowAt A l lsp (st.put l (.inst "LowpassOracle" (lowAttrs lsp vsp o'))) o' := by
  refine ⟨⟨vsp, heap_put_self _ _, hv⟩, ?_, h.lt, h.ltm⟩
  rw [heap_put_ne h.ne, h.mat, hm, hs]

theorem low_at (l lsp : ℕ) : OracleAt (lowOwn (W := W) l lsp) (LowAt A l lsp (n := n)) where
  bound h k hk := by rcases hk with rfl | rfl; exacts [h.lt, h.ltm]
  foreign {st o} h k hk cls attrs hh := by
    obtain ⟨⟨vsp, hl, hs⟩, hm, hlt, hltm⟩ := h
    rcases hk with rfl | rfl
    · rw [hl] at hh; simp only [Option.some.injEq, Obj.inst.injEq] at hh; rw [← hh.1]; decide
    · rw [hm] at hh; simp at hh
  stable {st st' o} h hf := ⟨h.mono hf.next (hf.same l h.lt (not_not.mpr (.inl rfl))) (hf.same lsp h.ltm (not_not.mpr (.inr rfl))), fun _ hk => hk⟩

theorem low_moves {st st' : St W} (h : Frame (· = l) st st') : Moves (lowOwn l lsp) st st' :=
  ⟨⟨h.next, fun k hk ho => h.same k hk fun e => ho (.inl e)⟩, fun _ hk => .inl hk⟩

/-- A cut in a new array. -/
def NewCut (st st' : St W) (c : Cut n) (w : Val) : Prop := IsCut st' c w ∧ ∃ k vb, w = .tuple [.ref k, vb] ∧ st.next ≤ k

/-- The variables of `assess_feas`. -/
structure LowVars (l lx : ℕ) (o : LowpassOracle n) (env : Env) : Prop where
  self : env "self" = some (.ref l)
  x : env "x" = some (.ref lx)
  mdim : env "mdim" = some (.int o.mdim)
  ndim : env "ndim" = some (.int n)
  range : env "range" = none
  float : env "float" = none
  np : env "np" = none

/-- The outcome of a turn of a loop. -/
def LowTurn (A : Arith) (l lsp lx : ℕ) (st : St W) (r : LowpassOracle n × Except Fault (Option (Cut n))) (res : Res W Flow) : Prop :=
  match r with
  | (o1, .error f) => ∃ st', res = .exc (excOf f) st' ∧ LowAt A l lsp st' o1 ∧ Frame (· = l) st st'
  | (o1, .ok none) => ∃ st' env', res = .ok (.next env') st' ∧ LowVars l lx o1 env' ∧ LowAt A l lsp st' o1 ∧ Frame (· = l) st st'
  | (o1, .ok (some c)) => ∃ st' w, res = .ok (.ret w) st' ∧ NewCut st st' c w ∧ LowAt A l lsp st' o1 ∧ Frame (· = l) st st'

/-- The outcome of `assess_feas`. -/
def LowRes (A : Arith) (l lsp : ℕ) (st : St W) (r : LowpassOracle n × Except Fault (Option (Cut n))) (res : Res W Val) : Prop :=
  match r with
  | (o1, .error f) => ∃ st', res = .exc (excOf f) st' ∧ LowAt A l lsp st' o1 ∧ Frame (· = l) st st'
  | (o1, .ok none) => ∃ st', res = .ok .none st' ∧ LowAt A l lsp st' o1 ∧ Frame (· = l) st st'
  | (o1, .ok (some c)) => ∃ st' w, res = .ok w st' ∧ NewCut st st' c w ∧ LowAt A l lsp st' o1 ∧ Frame (· = l) st st'

theorem LowRes.pre {st st' : St W} {r : LowpassOracle n × Except Fault (Option (Cut n))} {res : Res W Val} (hf : Frame (· = l) st st') (h : LowRes A l lsp st' r res) : LowRes A l lsp st r res := by
  rcases r with ⟨o1, f | _ | c⟩
  · obtain ⟨s, h1, h2, h3⟩ := h
    exact ⟨s, h1, h2, hf.trans h3⟩
  · obtain ⟨s, h1, h2, h3⟩ := h
    exact ⟨s, h1, h2, hf.trans h3⟩
  · obtain ⟨s, w, h1, ⟨h2, k, vb, h3, h4⟩, h5, h6⟩ := h
    exact ⟨s, w, h1, ⟨h2, k, vb, h3, hf.next.trans h4⟩, h5, hf.trans h6⟩

/-- A loop whose turns are those of the model, and what comes after it. -/
theorem low_loop {step : LowpassOracle n → LowpassOracle n × Except Fault (Option (Cut n))} {tail : LowpassOracle n → LowpassOracle n × Except Fault (Option (Cut n))} {body R : List PStmt}
    (ht : ∀ {st : St W} {o env} (w : Val), LowAt A l lsp st o → st.heap lx = some (.vec n x) → lx < st.next → LowVars l lx o env →
      LowTurn A l lsp lx st (step o) (turn (mach A ext) (call (mach A ext) fuel) (.name "_") body w env st))
    (hR : ∀ {st : St W} {o env}, LowAt A l lsp st o → st.heap lx = some (.vec n x) → lx < st.next → LowVars l lx o env →
      LowRes A l lsp st (tail o) ((execs (mach A ext) (call (mach A ext) fuel) R env st).bind result))
    (vs : List Val) {st : St W} {o : LowpassOracle n} {env : Env} (h : LowAt A l lsp st o) (hx : st.heap lx = some (.vec n x)) (hlx : lx < st.next) (hv : LowVars l lx o env) :
    LowRes A l lsp st (match LowpassOracle.scan step vs.length o with
        | (o, .error f) => (o, .error f)
        | (o, .ok (some cut)) => (o, .ok (some cut))
        | (o, .ok none) => tail o)
      (((loop (turn (mach A ext) (call (mach A ext) fuel) (.name "_") body) vs env st).bind (after (mach A ext) (call (mach A ext) fuel) R)).bind result) := by
  induction vs generalizing st o env with
  | nil => exact hR h hx hlx hv
  | cons v vs ih =>
    have ht := ht v h hx hlx hv
    rw [List.length_cons, LowpassOracle.scan, loop_cons]
    generalize turn (mach A ext) (call (mach A ext) fuel) (.name "_") body = T at ht ih ⊢
    rcases hr : step o with ⟨o1, f | _ | c⟩ <;> rw [hr] at ht <;> dsimp only at ht ⊢
    · obtain ⟨st', h1, h2, h3⟩ := ht
      rw [h1]
      exact ⟨st', rfl, h2, h3⟩
    · obtain ⟨st', env', h1, h2, h3, h4⟩ := ht
      rw [h1]
      exact (ih h3 ((h4.same lx hlx (h.nex hx)).trans hx) (hlx.trans_le h4.next) h2).pre h4
    · obtain ⟨st', w, h1, h2, h3, h4⟩ := ht
      rw [h1]
      exact ⟨st', w, rfl, h2, h3, h4⟩

/-- `self.idx1 += 1` and the reset. -/
theorem low_next1 {vsp : Val} (hl : st.heap l = some (.inst "LowpassOracle" (lowAttrs lsp vsp o))) {env : Env} (hv : LowVars l lx o env) {cl : Val → List Val → M W Val} (R : List PStmt) :
    execs (mach A ext) cl ((loopBody (Source.LowpassOracle.LowpassOracle.assess_feas.body.drop 1)).take 2 ++ R) env st
      = execs (mach A ext) cl R env (st.put l (.inst "LowpassOracle" (lowAttrs lsp vsp o.turn1))) := by
  simp only [Source.LowpassOracle.LowpassOracle.assess_feas, loopBody, List.drop, List.take, List.cons_append, List.nil_append]
  have e : ((o.idx1 : ℤ) + 1) = ((o.idx1 + 1 : ℕ) : ℤ) := by push_cast; rfl
  by_cases h : o.idx1 + 1 = o.nwpass
  · simp only [py, hv.self, hl, e, low_set_idx1, Nat.cast_inj, h, LowpassOracle.turn1]
    rw [show Val.int 0 = .int ((0 : ℕ) : ℤ) from rfl, low_set_idx1]
  · simp only [py, hv.self, hl, e, low_set_idx1, Nat.cast_inj, h, LowpassOracle.turn1]

/-- `self.idx3 += 1` and the reset. -/
theorem low_next3 {vsp : Val} (hl : st.heap l = some (.inst "LowpassOracle" (lowAttrs lsp vsp o))) {env : Env} (hv : LowVars l lx o env) {cl : Val → List Val → M W Val} (R : List PStmt) :
    execs (mach A ext) cl ((loopBody (Source.LowpassOracle.LowpassOracle.assess_feas.body.drop 4)).take 2 ++ R) env st
      = execs (mach A ext) cl R env (st.put l (.inst "LowpassOracle" (lowAttrs lsp vsp o.turn3))) := by
  simp only [Source.LowpassOracle.LowpassOracle.assess_feas, loopBody, List.drop, List.take, List.cons_append, List.nil_append]
  have e : ((o.idx3 : ℤ) + 1) = ((o.idx3 + 1 : ℕ) : ℤ) := by push_cast; rfl
  by_cases h : o.idx3 + 1 = o.mdim
  · simp only [py, hv.self, hv.mdim, hl, e, low_set_idx3, Nat.cast_inj, h, LowpassOracle.turn3]
  · simp only [py, hv.self, hv.mdim, hl, e, low_set_idx3, Nat.cast_inj, h, LowpassOracle.turn3]

/-- `self.idx2 += 1` and the reset. -/
theorem low_next2 {vsp : Val} (hl : st.heap l = some (.inst "LowpassOracle" (lowAttrs lsp vsp o))) {env : Env} (hv : LowVars l lx o env) {cl : Val → List Val → M W Val} (R : List PStmt) :
    execs (mach A ext) cl ((loopBody (Source.LowpassOracle.LowpassOracle.assess_feas.body.drop 5)).take 2 ++ R) env st
      = execs (mach A ext) cl R env (st.put l (.inst "LowpassOracle" (lowAttrs lsp vsp o.turn2))) := by
  simp only [Source.LowpassOracle.LowpassOracle.assess_feas, loopBody, List.drop, List.take, List.cons_append, List.nil_append]
  have e : ((o.idx2 : ℤ) + 1) = ((o.idx2 + 1 : ℕ) : ℤ) := by push_cast; rfl
  by_cases h : o.idx2 + 1 = o.nwstop
  · simp only [py, hv.self, hl, e, low_set_idx2, Nat.cast_inj, h, LowpassOracle.turn2]
  · simp only [py, hv.self, hl, e, low_set_idx2, Nat.cast_inj, h, LowpassOracle.turn2]

/-- A turn of the passband loop. -/
theorem low_turn1 {env : Env} (w : Val) (h : LowAt A l lsp st o) (hx : st.heap lx = some (.vec n x)) (hlx : lx < st.next) (hv : LowVars l lx o env) :
    LowTurn A l lsp lx st (A.lowPassStep x o) (turn (mach A ext) (call (mach A ext) (fuel + 1)) (.name "_") (loopBody (Source.LowpassOracle.LowpassOracle.assess_feas.body.drop 1)) w env st) := by
  obtain ⟨vsp, hl, hs⟩ := h.obj
  have hv1 : LowVars l lx o (env.set "_" w) := by constructor <;> simp only [py, hv.self, hv.x, hv.mdim, hv.ndim, hv.range, hv.float, hv.np]
  have h1 := low_next1 (A := A) (ext := ext) hl hv1 (cl := call (mach A ext) (fuel + 1)) ((loopBody (Source.LowpassOracle.LowpassOracle.assess_feas.body.drop 1)).drop 2)
  have hw := h.write (o' := o.turn1) (vsp := vsp) rfl rfl hs
  have hf : Frame (· = l) st (st.put l (.inst "LowpassOracle" (lowAttrs lsp vsp o.turn1))) := (Frame.refl (· = l) st).put _ (.inl rfl)
  rw [List.take_append_drop] at h1
  rw [turn_apply, assign_name, rbind_ok, h1]
  have hx1 := (hf.same lx hlx (h.nex hx)).trans hx
  generalize hs1 : st.put l (.inst "LowpassOracle" (lowAttrs lsp vsp o.turn1)) = s1 at hw hf hx1 ⊢
  have hl1 : s1.heap l = some (.inst "LowpassOracle" (lowAttrs lsp vsp o.turn1)) := by rw [← hs1, heap_put_self]
  have hlx1 : lx < s1.next := hlx.trans_le hf.next
  have hr := item_row hw.mat o.turn1.idx1
  obtain ⟨e1, e2, e3, e4, e5, e6, e7⟩ := hv1
  generalize env.set "_" w = env1 at *
  simp only [Source.LowpassOracle.LowpassOracle.assess_feas, loopBody, List.drop]
  rw [Arith.lowPassStep, LowpassOracle.row]
  by_cases hk : o.turn1.idx1 < o.turn1.mdim
  swap
  · rw [if_neg hk] at hr ⊢
    refine ⟨s1, ?_, hw, hf⟩
    simp only [py, e1, hl1, hr]
    rfl
  rw [if_pos hk] at hr ⊢
  dsimp only
  generalize o.turn1.spectrum o.turn1.idx1 = col at hr
  have hfc := hf.alloc (.vec n col)
  have hwc := hw.alloc (.vec n col)
  have hfn := hfc.alloc (.vec n (-col))
  have hwn := hwc.alloc (.vec n (-col))
  have hxl : (s1.next = l) = False := by simp; exact hw.lt.ne'
  simp only [py, e1, e2, hl1, hr, lt_ne hw.lt, lt_ne_add hw.lt, lt_ne hlx1, hx1]
  rw [Arith.lowPassCut]
  by_cases hu : A.dot col x > o.turn1.upSq
  · rw [if_pos hu, if_pos (show A.dot col x > o.upSq from hu)]
    exact ⟨s1.alloc (.vec n col), _, rfl, ⟨⟨_, _, rfl, Nat.lt_succ_self _, heap_alloc_self _, .tuple [some _, some _]⟩, _, _, rfl, hf.next⟩, hwc, hfc⟩
  · rw [if_neg hu, if_neg (show ¬ A.dot col x > o.upSq from hu)]
    by_cases hd : A.dot col x < o.turn1.lpSq
    · rw [if_pos hd, if_pos (show A.dot col x < o.lpSq from hd)]
      exact ⟨(s1.alloc (.vec n col)).alloc (.vec n (-col)), _, rfl, ⟨⟨_, _, rfl, Nat.lt_succ_self _, heap_alloc_self _, .tuple [some _, some _]⟩, _, _, rfl, hf.next.trans (Nat.le_succ _)⟩, hwn, hfn⟩
    · rw [if_neg hd, if_neg (show ¬ A.dot col x < o.lpSq from hd)]
      exact ⟨s1.alloc (.vec n col), _, rfl, ⟨by simpa only [py] using e1, by simpa only [py] using e2, by simp only [py]; exact e3, by simpa only [py] using e4, by simpa only [py] using e5, by simpa only [py] using e6, by simpa only [py] using e7⟩, hwc, hfc⟩

/-- A turn of the stopband loop. -/
theorem low_turn3 {env : Env} (w : Val) (h : LowAt A l lsp st o) (hx : st.heap lx = some (.vec n x)) (hlx : lx < st.next) (hv : LowVars l lx o env) :
    LowTurn A l lsp lx st (A.lowStopStep x o) (turn (mach A ext) (call (mach A ext) (fuel + 1)) (.name "_") (loopBody (Source.LowpassOracle.LowpassOracle.assess_feas.body.drop 4)) w env st) := by
  obtain ⟨vsp, hl, hs⟩ := h.obj
  have hv1 : LowVars l lx o (env.set "_" w) := by constructor <;> simp only [py, hv.self, hv.x, hv.mdim, hv.ndim, hv.range, hv.float, hv.np]
  have h1 := low_next3 (A := A) (ext := ext) hl hv1 (cl := call (mach A ext) (fuel + 1)) ((loopBody (Source.LowpassOracle.LowpassOracle.assess_feas.body.drop 4)).drop 2)
  have hw := h.write (o' := o.turn3) (vsp := vsp) rfl rfl hs
  have hf : Frame (· = l) st (st.put l (.inst "LowpassOracle" (lowAttrs lsp vsp o.turn3))) := (Frame.refl (· = l) st).put _ (.inl rfl)
  rw [List.take_append_drop] at h1
  rw [turn_apply, assign_name, rbind_ok, h1]
  have hx1 := (hf.same lx hlx (h.nex hx)).trans hx
  generalize hs1 : st.put l (.inst "LowpassOracle" (lowAttrs lsp vsp o.turn3)) = s1 at hw hf hx1 ⊢
  have hl1 : s1.heap l = some (.inst "LowpassOracle" (lowAttrs lsp vsp o.turn3)) := by rw [← hs1, heap_put_self]
  have hlx1 : lx < s1.next := hlx.trans_le hf.next
  have hr := item_row hw.mat o.turn3.idx3
  obtain ⟨e1, e2, e3, e4, e5, e6, e7⟩ := hv1
  generalize env.set "_" w = env1 at *
  simp only [Source.LowpassOracle.LowpassOracle.assess_feas, loopBody, List.drop]
  rw [Arith.lowStopStep, LowpassOracle.row]
  by_cases hk : o.turn3.idx3 < o.turn3.mdim
  swap
  · rw [if_neg hk] at hr ⊢
    refine ⟨s1, ?_, hw, hf⟩
    simp only [py, e1, hl1, hr]
    rfl
  rw [if_pos hk] at hr ⊢
  dsimp only
  generalize o.turn3.spectrum o.turn3.idx3 = col at hr
  have hfc := hf.alloc (.vec n col)
  have hwc := hw.alloc (.vec n col)
  have hfn := hfc.alloc (.vec n (-col))
  have hwn := hwc.alloc (.vec n (-col))
  have hxl : (s1.next = l) = False := by simp; exact hw.lt.ne'
  have hd : ∀ x : ℝ, binOp A .sub (.num x) vsp = fun s : St W => .ok (.num (A.sub x o.spSq)) s := fun x => by funext s; rw [binOp_right hs.1 (by decide)]; rfl
  have ha : ∀ x : ℝ, binOp A .add (.num x) vsp = fun s : St W => .ok (.num (A.add x o.spSq)) s := fun x => by funext s; rw [binOp_right hs.1 (by decide)]; rfl
  simp only [py, e1, e2, hl1, hr, lt_ne hw.lt, lt_ne_add hw.lt, lt_ne hlx1, hx1, cmp_gt_real hs.2, cmp_lt_lit, hd, ha, cmp_gt_bot]
  rw [Arith.lowStopCut]
  by_cases hu : A.dot col x > o.spSq
  · rw [if_pos hu, if_pos hu]
    exact ⟨s1.alloc (.vec n col), _, rfl, ⟨⟨_, _, rfl, Nat.lt_succ_self _, heap_alloc_self _, .tuple [some _, some _]⟩, _, _, rfl, hf.next⟩, hwc, hfc⟩
  · rw [if_neg hu, if_neg hu]
    by_cases hn : A.dot col x < 0
    · rw [if_pos hn, if_pos hn]
      exact ⟨(s1.alloc (.vec n col)).alloc (.vec n (-col)), _, rfl, ⟨⟨_, _, rfl, Nat.lt_succ_self _, heap_alloc_self _, .tuple [some _, some _]⟩, _, _, rfl, hf.next.trans (Nat.le_succ _)⟩, hwn, hfn⟩
    · rw [if_neg hn, if_neg hn]
      dsimp only
      have hv2 : LowVars l lx o ((env1.set "col_k" (.ref s1.next)).set "v" (.num (A.dot col x))) := by constructor <;> simp only [py, e1, e2, e3, e4, e5, e6, e7]
      by_cases hm : (A.dot col x : WithBot ℝ) > o.turn3.fmax
      · rw [Arith.lowTrack, if_pos hm, if_pos hm, ← botVal_coe, low_set_fmax, low_set_kmax]
        exact ⟨_, _, rfl, ⟨hv2.1, hv2.2, hv2.3, hv2.4, hv2.5, hv2.6, hv2.7⟩, hwc.write rfl rfl hs, hfc.put _ (.inl rfl)⟩
      · rw [Arith.lowTrack, if_neg hm, if_neg hm]
        exact ⟨_, _, rfl, ⟨hv2.1, hv2.2, hv2.3, hv2.4, hv2.5, hv2.6, hv2.7⟩, hwc, hfc⟩

/-- A turn of the transition band loop. -/
theorem low_turn2 {env : Env} (w : Val) (h : LowAt A l lsp st o) (hx : st.heap lx = some (.vec n x)) (hlx : lx < st.next) (hv : LowVars l lx o env) :
    LowTurn A l lsp lx st (A.lowTransStep x o) (turn (mach A ext) (call (mach A ext) (fuel + 1)) (.name "_") (loopBody (Source.LowpassOracle.LowpassOracle.assess_feas.body.drop 5)) w env st) := by
  obtain ⟨vsp, hl, hs⟩ := h.obj
  have hv1 : LowVars l lx o (env.set "_" w) := by constructor <;> simp only [py, hv.self, hv.x, hv.mdim, hv.ndim, hv.range, hv.float, hv.np]
  have h1 := low_next2 (A := A) (ext := ext) hl hv1 (cl := call (mach A ext) (fuel + 1)) ((loopBody (Source.LowpassOracle.LowpassOracle.assess_feas.body.drop 5)).drop 2)
  have hw := h.write (o' := o.turn2) (vsp := vsp) rfl rfl hs
  have hf : Frame (· = l) st (st.put l (.inst "LowpassOracle" (lowAttrs lsp vsp o.turn2))) := (Frame.refl (· = l) st).put _ (.inl rfl)
  rw [List.take_append_drop] at h1
  rw [turn_apply, assign_name, rbind_ok, h1]
  have hx1 := (hf.same lx hlx (h.nex hx)).trans hx
  generalize hs1 : st.put l (.inst "LowpassOracle" (lowAttrs lsp vsp o.turn2)) = s1 at hw hf hx1 ⊢
  have hl1 : s1.heap l = some (.inst "LowpassOracle" (lowAttrs lsp vsp o.turn2)) := by rw [← hs1, heap_put_self]
  have hlx1 : lx < s1.next := hlx.trans_le hf.next
  have hr := item_row hw.mat o.turn2.idx2
  obtain ⟨e1, e2, e3, e4, e5, e6, e7⟩ := hv1
  generalize env.set "_" w = env1 at *
  simp only [Source.LowpassOracle.LowpassOracle.assess_feas, loopBody, List.drop]
  rw [Arith.lowTransStep, LowpassOracle.row]
  by_cases hk : o.turn2.idx2 < o.turn2.mdim
  swap
  · rw [if_neg hk] at hr ⊢
    refine ⟨s1, ?_, hw, hf⟩
    simp only [py, e1, hl1, hr]
    rfl
  rw [if_pos hk] at hr ⊢
  dsimp only
  generalize o.turn2.spectrum o.turn2.idx2 = col at hr
  have hfc := hf.alloc (.vec n col)
  have hwc := hw.alloc (.vec n col)
  have hfn := hfc.alloc (.vec n (-col))
  have hwn := hwc.alloc (.vec n (-col))
  have hxl : (s1.next = l) = False := by simp; exact hw.lt.ne'
  simp only [py, e1, e2, hl1, hr, lt_ne hw.lt, lt_ne_add hw.lt, lt_ne hlx1, hx1, cmp_lt_lit]
  rw [Arith.lowTransCut]
  by_cases hd : A.dot col x < 0
  · rw [if_pos hd, if_pos hd]
    exact ⟨(s1.alloc (.vec n col)).alloc (.vec n (-col)), _, rfl, ⟨⟨_, _, rfl, Nat.lt_succ_self _, heap_alloc_self _, .scalar _⟩, _, _, rfl, hf.next.trans (Nat.le_succ _)⟩, hwn, hfn⟩
  · rw [if_neg hd, if_neg hd]
    exact ⟨s1.alloc (.vec n col), _, rfl, ⟨by simpa only [py] using e1, by simpa only [py] using e2, by simp only [py]; exact e3, by simpa only [py] using e4, by simpa only [py] using e5, by simpa only [py] using e6, by simpa only [py] using e7⟩, hwc, hfc⟩

theorem intsFrom_length (lo : ℤ) (k : ℕ) : (intsFrom lo k).length = k := by simp [intsFrom]

/-- `x[0]`. -/
theorem item_first (hx : st.heap lx = some (.vec n x)) : getItem (.ref lx) [.pos 0] st = if h : 0 < n then .ok (.num (x ⟨0, h⟩)) st else .exc "IndexError" st := by
  by_cases h : 0 < n
  · rw [dif_pos h]; exact item_vec hx ⟨0, h⟩
  · obtain rfl : n = 0 := by omega
    rw [dif_neg h]
    simp only [getItem, bind_apply, getObj_eq, hx, readObj_some, rbind_ok]
    rfl

theorem set_first {k : ℕ} {y : Vec n} (hy : st.heap k = some (.vec n y)) (h : 0 < n) (a : ℝ) : setItem A (.ref k) [.pos 0] (.num a) st = .ok () (st.put k (.vec n fun j => if (j : ℕ) = 0 then a else y j)) := by
  have h1 : normIdx n 0 = some 0 := by simp [normIdx, h]
  simp only [setItem, setEntry, bind_apply, getObj_eq, hy, readObj_some, rbind_ok, entry, toFloat_num, pure_apply, h1, orIndexError, putObj_apply]

/-- The check of the first coefficient. -/
theorem low_last (hA : Literals A) {env : Env} (h : LowAt A l lsp st o) (hx : st.heap lx = some (.vec n x)) (hlx : lx < st.next) (hv : LowVars l lx o env) :
    LowRes A l lsp st (o.lastCheck x) ((execs (mach A ext) (call (mach A ext) (fuel + 1)) (Source.LowpassOracle.LowpassOracle.assess_feas.body.drop 6) env st).bind result) := by
  have hi := item_first hx
  have hx1 : (st.alloc (.vec n 0)).heap lx = some (.vec n x) := (heap_alloc_ne hlx.ne _).trans hx
  have hx2 : (st.alloc (.vec n fun j => if (j : ℕ) = 0 then -1 else 0)).heap lx = some (.vec n x) := (heap_alloc_ne hlx.ne _).trans hx
  have hi1 := item_first hx2
  simp only [Source.LowpassOracle.LowpassOracle.assess_feas, List.drop]
  rw [LowpassOracle.lastCheck]
  by_cases hn : 0 < n
  · rw [dif_pos hn] at hi hi1 ⊢
    have hset := set_first (A := A) (st := st.alloc (.vec n 0)) (k := st.next) (heap_alloc_self _) hn (-1)
    by_cases hneg : x ⟨0, hn⟩ < 0
    · rw [if_pos hneg]
      refine ⟨st.alloc (.vec n fun j => if (j : ℕ) = 0 then -1 else 0), .tuple [.ref st.next, .num (-x ⟨0, hn⟩)], ?_, ⟨⟨_, _, rfl, Nat.lt_succ_self _, heap_alloc_self _, .scalar _⟩, _, _, rfl, le_rfl⟩, h.alloc _, (Frame.refl (· = l) st).alloc _⟩
      simp only [py, hv.x, hv.ndim, hv.np, hi, cmp_lt_lit, hneg, builtin_zeros_vec, hA.lit1, hset, Pi.zero_apply, hi1]
    · rw [if_neg hneg]
      refine ⟨st, ?_, h, .refl _ _⟩
      simp only [py, hv.x, hv.ndim, hi, cmp_lt_lit, hneg]
  · rw [dif_neg hn] at hi ⊢
    refine ⟨st, ?_, h, .refl _ _⟩
    simp only [py, hv.x, hi]
    rfl

theorem low_for {env : Env} {cl : Val → List Val → M W Val} {t it : PExpr} {body R : List PStmt} {vs : List Val} {r : LowpassOracle n × Except Fault (Option (Cut n))} (hit : eval (mach A ext) cl env it st = .ok (.list vs) st)
    (h : LowRes A l lsp st r (((loop (turn (mach A ext) cl t body) vs env st).bind (after (mach A ext) cl R)).bind result)) : LowRes A l lsp st r ((execs (mach A ext) cl (.for_ t it body :: R) env st).bind result) := by
  rw [execs_cons, exec_for, hit]
  exact h

/-- `assess_feas`. -/
theorem low_feas (hA : Literals A) (h : LowAt A l lsp st o) (hx : st.heap lx = some (.vec n x)) (hlx : lx < st.next) :
    LowRes A l lsp st (A.lowFeas o x) (call (mach A ext) (fuel + 2) (.meth (.ref l) "assess_feas") [.ref lx] st) := by
  have t2 : ∀ {st : St W} {o env}, LowAt A l lsp st o → st.heap lx = some (.vec n x) → lx < st.next → LowVars l lx o env →
      LowRes A l lsp st (match A.lowTransLoop x (o.nwstop - o.nwpass) o with
        | (o, .error f) => (o, .error f)
        | (o, .ok (some cut)) => (o, .ok (some cut))
        | (o, .ok none) => o.lastCheck x) ((execs (mach A ext) (call (mach A ext) (fuel + 1)) (Source.LowpassOracle.LowpassOracle.assess_feas.body.drop 5) env st).bind result) := by
    intro st o env h hx hlx hv
    obtain ⟨vsp, hl, hs⟩ := h.obj
    have := low_loop (A := A) (ext := ext) (fuel := fuel + 1) (fun w => low_turn2 w) (low_last hA) (intsFrom o.nwpass (o.nwstop - o.nwpass)) h hx hlx hv
    rw [intsFrom_length] at this
    have e : ((o.nwstop : ℤ) - o.nwpass).toNat = o.nwstop - o.nwpass := by omega
    refine low_for ?_ this
    simp only [py, hv.self, hv.range, hl, e]
  have t1 : ∀ {st : St W} {o env}, LowAt A l lsp st o → st.heap lx = some (.vec n x) → lx < st.next → LowVars l lx o env →
      LowRes A l lsp st (match A.lowStopLoop x (o.mdim - o.nwstop) { o with fmax := ⊥, kmax := 0 } with
        | (o, .error f) => (o, .error f)
        | (o, .ok (some cut)) => (o, .ok (some cut))
        | (o, .ok none) =>
          match A.lowTransLoop x (o.nwstop - o.nwpass) o with
          | (o, .error f) => (o, .error f)
          | (o, .ok (some cut)) => (o, .ok (some cut))
          | (o, .ok none) => o.lastCheck x) ((execs (mach A ext) (call (mach A ext) (fuel + 1)) (Source.LowpassOracle.LowpassOracle.assess_feas.body.drop 2) env st).bind result) := by
    intro st o env h hx hlx hv
    obtain ⟨vsp, hl, hs⟩ := h.obj
    have hf : Frame (· = l) st (st.put l (.inst "LowpassOracle" (lowAttrs lsp vsp { o with fmax := ⊥, kmax := 0 }))) := (Frame.refl (· = l) st).put _ (.inl rfl)
    have hw := h.write (o' := { o with fmax := ⊥, kmax := 0 }) (vsp := vsp) rfl rfl hs
    have hx1 := (hf.same lx hlx (h.nex hx)).trans hx
    have hv1 : LowVars l lx { o with fmax := ⊥, kmax := 0 } env := ⟨hv.1, hv.2, hv.3, hv.4, hv.5, hv.6, hv.7⟩
    have := low_loop (A := A) (ext := ext) (fuel := fuel + 1) (fun w => low_turn3 w) t2 (intsFrom o.nwstop (o.mdim - o.nwstop)) hw hx1 (hlx.trans_le hf.next) hv1
    rw [intsFrom_length] at this
    have e : ((o.mdim : ℤ) - o.nwstop).toNat = o.mdim - o.nwstop := by omega
    refine LowRes.pre hf ?_
    have ht : ∀ R : List PStmt, execs (mach A ext) (call (mach A ext) (fuel + 1)) ((Source.LowpassOracle.LowpassOracle.assess_feas.body.drop 2).take 2 ++ R) env st
        = execs (mach A ext) (call (mach A ext) (fuel + 1)) R env (st.put l (.inst "LowpassOracle" (lowAttrs lsp vsp { o with fmax := ⊥, kmax := 0 }))) := by
      intro R
      simp only [Source.LowpassOracle.LowpassOracle.assess_feas, List.drop, List.take, List.cons_append, List.nil_append]
      simp only [py, hv.self, hv.float, hl]
      rw [← botVal_bot, low_set_fmax, show Val.int 0 = .int ((0 : ℕ) : ℤ) from rfl, low_set_kmax]
    have ht := ht (Source.LowpassOracle.LowpassOracle.assess_feas.body.drop 4)
    rw [show (Source.LowpassOracle.LowpassOracle.assess_feas.body.drop 2).take 2 ++ Source.LowpassOracle.LowpassOracle.assess_feas.body.drop 4 = Source.LowpassOracle.LowpassOracle.assess_feas.body.drop 2 from rfl] at ht
    rw [ht]
    refine low_for ?_ this
    simp only [py, hv.self, hv.range, hv.mdim, e]
  obtain ⟨vsp, hl, hs⟩ := h.obj
  rw [call_meth hl method_LowpassOracle_assess_feas rfl]
  set env : Env := (((Env.empty.set "self" (.ref l)).set "x" (.ref lx)).set "mdim" (.int o.mdim)).set "ndim" (.int n) with henv
  have hv : LowVars l lx o env := by constructor <;> simp only [henv, py]
  have := low_loop (A := A) (ext := ext) (fuel := fuel + 1) (fun w => low_turn1 w) t1 (intsFrom 0 o.nwpass) h hx hlx hv
  rw [intsFrom_length] at this
  have ht : ∀ R : List PStmt, runBody (mach A ext) (call (mach A ext) (fuel + 1)) Source.LowpassOracle.LowpassOracle.assess_feas.params (Source.LowpassOracle.LowpassOracle.assess_feas.body.take 1 ++ R) [.ref l, .ref lx] Env.empty st
      = (execs (mach A ext) (call (mach A ext) (fuel + 1)) R env st).bind result := by
    intro R
    simp only [Source.LowpassOracle.LowpassOracle.assess_feas, List.take, List.cons_append, List.nil_append]
    simp only [py, hl, h.mat, henv]
  have ht := ht (Source.LowpassOracle.LowpassOracle.assess_feas.body.drop 1)
  rw [List.take_append_drop] at ht
  rw [ht]
  refine low_for ?_ this
  simp only [py, hv.self, hv.range, hl]
  rfl

/-- The outcome of `assess_optim`. -/
def LowOptim (A : Arith) (l lsp : ℕ) (st : St W) (r : LowpassOracle n × Except Fault (Cut n × Option ℝ)) (res : Res W Val) : Prop :=
  match r with
  | (o1, .error f) => ∃ st', res = .exc (excOf f) st' ∧ LowAt A l lsp st' o1 ∧ Frame (· = l) st st'
  | (o1, .ok (c, g1)) => ∃ st' w, res = .ok (.tuple [w, (g1.map Val.num).getD .none]) st' ∧ NewCut st st' c w ∧ LowAt A l lsp st' o1 ∧ Frame (· = l) st st'

/-- `assess_optim` of an oracle with a point in the stopband. -/
theorem low_optim (hA : Literals A) (h : LowAt A l lsp st o) (hp : o.nwstop < o.mdim) (hx : st.heap lx = some (.vec n x)) (hlx : lx < st.next) {g : ℝ} {vg : Val} (hg : IsNum A g vg) :
    LowOptim A l lsp st (A.lowOptim o x g) (call (mach A ext) (fuel + 3) (.meth (.ref l) "assess_optim") [.ref lx, vg] st) := by
  obtain ⟨vsp, hl, hs⟩ := h.obj
  have hf : Frame (· = l) st (st.put l (.inst "LowpassOracle" (lowAttrs lsp vg { o with spSq := g }))) := (Frame.refl (· = l) st).put _ (.inl rfl)
  have hw := h.write (o' := { o with spSq := g }) (vsp := vg) rfl rfl hg
  have hx1 := (hf.same lx hlx (h.nex hx)).trans hx
  have hr := low_feas (A := A) (ext := ext) (fuel := fuel) hA hw hx1 (hlx.trans_le hf.next)
  have hd := (A.lowFeas_dims { o with spSq := g } x).2.2 hp
  have hset := low_set_sp lsp vsp o vg g
  rw [call_meth hl method_LowpassOracle_assess_optim rfl, Arith.lowOptim]
  rcases hfe : A.lowFeas { o with spSq := g } x with ⟨o1, f | _ | c⟩ <;> rw [hfe] at hr hd <;> dsimp only
  · obtain ⟨st', h1, h2, h3⟩ := hr
    refine ⟨st', ?_, h2, hf.trans h3⟩
    simp only [Source.LowpassOracle.LowpassOracle.assess_optim, py, hl, hset, h1]
  · obtain ⟨s1, h1, h2, h3⟩ := hr
    obtain ⟨vsp1, hl1, hs1⟩ := h2.obj
    have hf1 := hf.trans h3
    have hrow := item_row h2.mat o1.kmax
    have hm : o1.fmax ≠ ⊥ := hd o1 rfl
    obtain ⟨m, hm⟩ := WithBot.ne_bot_iff_exists.mp hm
    have hb : botVal o1.fmax = .num m := by rw [← hm, botVal_coe]
    have ht : runBody (mach A ext) (call (mach A ext) (fuel + 2)) Source.LowpassOracle.LowpassOracle.assess_optim.params Source.LowpassOracle.LowpassOracle.assess_optim.body [.ref l, .ref lx, vg] Env.empty st
        = (execs (mach A ext) (call (mach A ext) (fuel + 2)) (Source.LowpassOracle.LowpassOracle.assess_optim.body.drop 3) ((((Env.empty.set "self" (.ref l)).set "xc" (.ref lx)).set "gamma" vg).set "cut" .none) s1).bind result := by
      simp only [Source.LowpassOracle.LowpassOracle.assess_optim, List.drop]
      generalize [PStmt.ret _] = R
      simp only [py, hl, hset, h1]
    rw [ht]
    simp only [Source.LowpassOracle.LowpassOracle.assess_optim, List.drop]
    rw [LowpassOracle.report, LowpassOracle.row, ← hm]
    by_cases hk : o1.kmax < o1.mdim
    · rw [if_pos hk] at hrow ⊢
      refine ⟨_, .tuple [.ref s1.next, .tuple [.num 0, .num m]], ?_, ⟨⟨_, _, rfl, Nat.lt_succ_self _, heap_alloc_self _, .tuple [some _, some _]⟩, _, _, rfl, hf1.next⟩, h2.alloc _, hf1.alloc _⟩
      simp only [py, hl1, hrow, lt_ne h2.lt, hb, hA.lit0, Option.map, Option.getD]
    · rw [if_neg hk] at hrow ⊢
      refine ⟨s1, ?_, h2, hf1⟩
      simp only [py, hl1, hrow]
      rfl
  · obtain ⟨s1, w, h1, ⟨h2, k, vb, rfl, h4⟩, h5, h6⟩ := hr
    refine ⟨s1, _, ?_, ⟨h2, k, vb, rfl, hf.next.trans h4⟩, h5, hf.trans h6⟩
    simp only [Source.LowpassOracle.LowpassOracle.assess_optim, py, hl, hset, h1, Option.map, Option.getD]
    exact if_pos rfl

end

/-! ### As an oracle of the loops -/

theorem IsNum.isNone {g : ℝ} {v : Val} (h : IsNum A g v) : v.isNone = false := by
  cases v <;> first | rfl | exact absurd h.1 (by simp [Val.toFloat])

theorem NewCut.own {own : St W → ℕ → Prop} {st st' : St W} {c : Cut n} {w : Val} (h : NewCut st st' c w) : OwnCut own st st' w := by
  obtain ⟨-, k, vb, rfl, hk⟩ := h
  exact ownCut_new hk

/-- `LowpassOracle` meets the contract for `assess_feas`. -/
theorem low_feas_oracle {free : Prop} (hA : Literals A) (l lsp : ℕ) : FeasOracle A ext (fuel + 2) (.ref l) (lowOwn (W := W) l lsp) (A.lowFeas (n := n)) (LowAt A l lsp) free where
  toOracleAt := low_at l lsp
  has {st o} h := by
    obtain ⟨vsp, hl, hs⟩ := h.obj
    intro cl
    simp only [py, hl]
  assess {st o lx x} h hx hlx := by
    have := low_feas (A := A) (ext := ext) (fuel := fuel) hA h hx hlx
    rcases hr : A.lowFeas o x with ⟨o1, f | _ | c⟩ <;> rw [hr] at this
    · obtain ⟨s, h1, h2, h3⟩ := this
      exact ⟨s, h1, h2, low_moves h3⟩
    · obtain ⟨s, h1, h2, h3⟩ := this
      exact ⟨s, h1, h2, low_moves h3⟩
    · obtain ⟨s, w, h1, h2, h3, h4⟩ := this
      exact ⟨w, s, h1, h3, low_moves h4, h2.1, .inr h2.own⟩

/-- A `LowpassOracle` with a point in the stopband. -/
def LowStopAt (A : Arith) (l lsp : ℕ) (st : St W) (o : LowpassOracle n) : Prop := LowAt A l lsp st o ∧ o.nwstop < o.mdim

theorem lowOptim_dims (A : Arith) (o : LowpassOracle n) (x : Vec n) (g : ℝ) : (A.lowOptim o x g).1.mdim = o.mdim ∧ (A.lowOptim o x g).1.nwstop = o.nwstop := by
  obtain ⟨h1, h2, -⟩ := A.lowFeas_dims { o with spSq := g } x
  unfold Arith.lowOptim
  rcases hf : A.lowFeas { o with spSq := g } x with ⟨o1, f | _ | c⟩ <;> rw [hf] at h1 h2 <;> dsimp only at h1 h2 ⊢
  · exact ⟨h1, h2⟩
  · have : o1.report.1 = o1 := by unfold LowpassOracle.report; split <;> rfl
    rw [this]; exact ⟨h1, h2⟩
  · exact ⟨h1, h2⟩

/-- `LowpassOracle` meets the contract for `assess_optim`. -/
theorem low_oracle {free : Prop} (hA : Literals A) (l lsp : ℕ) : OptimOracle A ext (fuel + 3) (.ref l) (lowOwn (W := W) l lsp) (A.lowOptim (n := n)) (IsNum A) (LowStopAt A l lsp) free where
  bound h := (low_at l lsp).bound h.1
  foreign h := (low_at l lsp).foreign h.1
  stable h hf := ⟨⟨((low_at l lsp).stable h.1 hf).1, h.2⟩, fun _ hk => hk⟩
  has {st o} h := by
    obtain ⟨vsp, hl, hs⟩ := h.1.obj
    intro cl
    simp only [py, hl]
  num h := h.isNone
  assess {st o lx x g vg} h hx hlx hg := by
    have := low_optim (A := A) (ext := ext) (fuel := fuel) hA h.1 h.2 hx hlx hg
    obtain ⟨hd1, hd2⟩ := lowOptim_dims A o x g
    have hd : (A.lowOptim o x g).1.nwstop < (A.lowOptim o x g).1.mdim := by rw [hd1, hd2]; exact h.2
    rcases hr : A.lowOptim o x g with ⟨o1, f | ⟨c, _ | g1⟩⟩ <;> rw [hr] at this hd
    · obtain ⟨s, h1, h2, h3⟩ := this
      exact ⟨s, h1, ⟨h2, hd⟩, low_moves h3⟩
    · obtain ⟨s, w, h1, h2, h3, h4⟩ := this
      exact ⟨w, s, h1, ⟨h3, hd⟩, low_moves h4, h2.1, .inr h2.own⟩
    · obtain ⟨s, w, h1, h2, h3, h4⟩ := this
      exact ⟨w, _, s, h1, ⟨h3, hd⟩, low_moves h4, h2.1, .inr h2.own, .num A g1⟩

/-! ### The constructor -/

theorem binOp_two_ref (k : ℕ) : binOp A .mul (.int 2) (.ref k) st = arrL A .mul (A.rnd 2) (st.heap k) st := by
  rw [binOp_arr .mul rfl]
  simp only [operand, bind_apply, pure_apply, rbind_ok, getObj_eq, Int.cast_ofNat]
  cases st.heap k <;> rfl

/-- Two matrices of the heap side by side. -/
theorem builtin_beside {r c d k l : ℕ} {x : Fin r → Fin c → ℝ} {y : Fin r → Fin d → ℝ} (hl : st.heap l = some (.mat r c x)) (hk : st.heap k = some (.mat r d y)) :
    builtin A "np.concatenate axis=" [.tuple [.ref l, .ref k], .int 1] st = .ok (.ref st.next) (st.alloc (.mat r (c + d) (beside x y))) := by
  show builtinFilter A "np.concatenate axis=" [.tuple [.ref l, .ref k], .int 1] st = _
  simp only [builtinFilter, bind_apply, getObj_eq, hl, hk, readObj_some, rbind_ok, dif_pos, allocObj_apply]
  rfl

theorem mat_cast {r c d : ℕ} (h : c = d) {f : Fin r → Fin c → ℝ} {g : Fin r → Fin d → ℝ} (hfg : ∀ i j, f i j = g i (j.cast h)) : Obj.mat r c f = Obj.mat r d g := by
  subst h
  congr
  funext i j
  exact hfg i j

theorem builtin_linspace_nat (N : ℕ) : builtin A "np.linspace" [.int 0, .glob "np.pi", .int (N : ℤ)] st = .ok (.ref st.next) (st.alloc (.vec N (linspace A (A.rnd 0) (A.rnd Real.pi) N))) := by
  rw [builtin_linspace_pi, Int.cast_zero]; rfl
theorem builtin_ones_nat (N : ℕ) : builtin A "np.ones" [.tuple [.int (N : ℤ), .int 1]] st = .ok (.ref st.next) (st.alloc (.mat N 1 fun _ _ => 1)) := rfl
theorem builtin_arange_one (m : ℕ) : builtin A "np.arange" [.int 1, .int ((m + 1 : ℕ) : ℤ)] st = .ok (.ref st.next) (st.alloc (.vec m fun i => ((i + 1 : ℕ) : ℝ))) := by
  have e : (((m + 1 : ℕ) : ℤ) - 1).toNat = m := by omega
  rw [builtin_arange, allocObj_apply]
  congr 2
  rw [← vec_cast e]
  congr 1
  funext i
  push_cast
  rw [Fin.val_cast]
  ring

/-- The first lines of the constructor: the cosines. -/
theorem low_temp {m N : ℕ} (hN : N = 15 * (m + 1)) (wpass wstop lp up sp : ℝ) (R : List PStmt) :
    ∃ s : St W, runBody (mach A ext) (call (mach A ext) (fuel + 1)) Source.LowpassOracle.LowpassOracle.__init__.params (Source.LowpassOracle.LowpassOracle.__init__.body.take 3 ++ R)
      [.ref st.next, .int ((m + 1 : ℕ) : ℤ), .num wpass, .num wstop, .num lp, .num up, .num sp] Env.empty (st.alloc (.inst "LowpassOracle" Env.empty))
        = (execs (mach A ext) (call (mach A ext) (fuel + 1)) R ((((((((((Env.empty.set "self" (.ref st.next)).set "ndim" (.int ((m + 1 : ℕ) : ℤ))).set "wpass" (.num wpass)).set "wstop" (.num wstop)).set "lp_sq" (.num lp)).set "up_sq" (.num up)).set "sp_sq" (.num sp)).set
          "mdim" (.int (N : ℤ))).set "w" (.ref (st.next + 1))).set "temp" (.ref (st.next + 5))) s).bind result
      ∧ s.next = st.next + 6 ∧ s.heap st.next = some (.inst "LowpassOracle" Env.empty) ∧ Frame (fun _ => False) st s
      ∧ s.heap (st.next + 5) = some (.mat N m fun i j => A.mul (A.rnd 2) (A.rnd (Real.cos (A.mul (A.lowOmega N i) ((j + 1 : ℕ) : ℝ))))) := by
  have e1 : 15 * ((m + 1 : ℕ) : ℤ) = (N : ℤ) := by rw [hN]; push_cast; ring
  refine ⟨(((((st.alloc (.inst "LowpassOracle" Env.empty)).alloc (.vec N (linspace A (A.rnd 0) (A.rnd Real.pi) N))).alloc (.vec m fun i => ((i + 1 : ℕ) : ℝ))).alloc (.mat N m fun i j => A.mul (linspace A (A.rnd 0) (A.rnd Real.pi) N i) ((j + 1 : ℕ) : ℝ))).alloc
    (.mat N m fun i j => A.rnd (Real.cos (A.mul (linspace A (A.rnd 0) (A.rnd Real.pi) N i) ((j + 1 : ℕ) : ℝ))))).alloc
    (.mat N m fun i j => A.mul (A.rnd 2) (A.rnd (Real.cos (A.mul (linspace A (A.rnd 0) (A.rnd Real.pi) N i) ((j + 1 : ℕ) : ℝ))))), ?_, rfl, ?_, ?_, ?_⟩
  · simp only [Source.LowpassOracle.LowpassOracle.__init__, List.take, List.cons_append, List.nil_append]
    simp only [py, e1, ↓builtin_linspace_nat, ↓builtin_arange_one, binOp_two_ref, Nat.add_left_cancel_iff, Nat.add_assoc, Nat.reduceAdd, Nat.reduceEqDiff, outerArr_vec]
  · rw [heap_alloc_ne, heap_alloc_ne, heap_alloc_ne, heap_alloc_ne, heap_alloc_ne, heap_alloc_self] <;> simp only [next_alloc] <;> omega
  · exact ((((((Frame.refl (fun _ => False) st).alloc _).alloc _).alloc _).alloc _).alloc _).alloc _
  · rw [show st.next + 5 = (((((st.alloc (.inst "LowpassOracle" Env.empty)).alloc (.vec N (linspace A (A.rnd 0) (A.rnd Real.pi) N))).alloc (.vec m fun i => ((i + 1 : ℕ) : ℝ))).alloc (.mat N m fun i j => A.mul (linspace A (A.rnd 0) (A.rnd Real.pi) N i) ((j + 1 : ℕ) : ℝ))).alloc
      (.mat N m fun i j => A.rnd (Real.cos (A.mul (linspace A (A.rnd 0) (A.rnd Real.pi) N i) ((j + 1 : ℕ) : ℝ))))).next from rfl, heap_alloc_self]
    rfl

theorem low_init {m : ℕ} (wpass wstop lp up sp : ℝ) (hp : 0 ≤ A.mul wpass (A.rnd ((15 * (m + 1) - 1 : ℤ) : ℝ))) (hs : 0 ≤ A.mul wstop (A.rnd ((15 * (m + 1) - 1 : ℤ) : ℝ))) :
    ∃ st', call (mach A ext) (fuel + 2) (.glob "LowpassOracle") [.int ((m + 1 : ℕ) : ℤ), .num wpass, .num wstop, .num lp, .num up, .num sp] st = .ok (.ref st.next) st'
      ∧ LowAt A st.next (st.next + 7) st' (A.lowInit (m + 1) wpass wstop lp up sp) ∧ Frame (fun _ => False) st st' := by
  rw [call_class (k := Source.LowpassOracle.LowpassOracle) (f := Source.LowpassOracle.LowpassOracle.__init__) rfl rfl rfl rfl]
  obtain ⟨N, hN⟩ : ∃ N, N = 15 * (m + 1) := ⟨_, rfl⟩
  obtain ⟨s, h1, h2, h3, h4, h5⟩ := low_temp (A := A) (ext := ext) (fuel := fuel) (st := st) hN wpass wstop lp up sp (Source.LowpassOracle.LowpassOracle.__init__.body.drop 3)
  rw [List.take_append_drop] at h1
  rw [h1]
  set s1 := s.alloc (.mat N 1 fun _ _ => 1) with hs1
  have h6 : s1.heap s.next = some (.mat N 1 fun _ _ => 1) := heap_alloc_self _
  have h7 : s1.heap (st.next + 5) = _ := (heap_alloc_ne (by omega) _).trans h5
  have hb := builtin_beside (A := A) h6 h7
  have hn1 : s1.next = st.next + 7 := by rw [hs1, next_alloc, h2]
  rw [h2] at hb h6
  rw [hn1] at hb
  set s2 := s1.alloc (.mat N (1 + m) (beside (fun _ _ => 1) fun i j => A.mul (A.rnd 2) (A.rnd (Real.cos (A.mul (A.lowOmega N i) ((j + 1 : ℕ) : ℝ)))))) with hs2
  have h8 : s2.heap st.next = some (.inst "LowpassOracle" Env.empty) := by rw [hs2, heap_alloc_ne (by omega), hs1, heap_alloc_ne (by omega), h3]
  simp only [Source.LowpassOracle.LowpassOracle.__init__, List.drop]
  simp only [py, ↓builtin_ones_nat, ← hs1, h2, hb, h8]
  have hq : ∀ w (t : St W), binOp A .mul (.num w) (.int ((N : ℤ) - 1)) t = .ok (.num (A.mul w (A.rnd ((N - 1 : ℤ) : ℝ)))) t := fun _ _ => rfl
  have hf : ∀ x : ℝ, 0 ≤ x → (⌊x⌋ + 1 : ℤ) = ((⌊x⌋₊ + 1 : ℕ) : ℤ) := by
    intro x hx
    rw [Nat.cast_add, Int.natCast_floor_eq_floor hx]
    rfl
  have hN' : ((15 * ((m : ℤ) + 1) - 1 : ℤ) : ℝ) = ((N - 1 : ℤ) : ℝ) := by rw [hN]; push_cast; ring
  rw [hN'] at hp hs
  have hp' := hf _ hp
  have hs' := hf _ hs
  simp only [py, hq, hp', hs']
  refine ⟨_, rfl, ⟨⟨.num sp, ?_, rfl, rfl⟩, ?_, ?_, ?_⟩, ?_⟩
  · rw [heap_put_self]
    simp only [lowAttrs, Arith.lowInit, Arith.lowEdge, hN]
    rfl
  · simp only [heap_put_ne (show st.next + 7 ≠ st.next by omega)]
    rw [hs2, ← hn1, heap_alloc_self]
    subst hN
    rw [mat_cast (Nat.add_comm 1 m) (g := fun i j => (A.lowInit (m + 1) wpass wstop lp up sp).spectrum i j)]
    · rfl
    · intro i j
      refine Fin.addCases (fun a => ?_) (fun b => ?_) j
      · simp only [beside, Fin.append_left]
        show (1 : ℝ) = A.lowRow (m + 1) (15 * (m + 1)) i (Fin.cast _ (Fin.castAdd m a))
        unfold Arith.lowRow
        rw [if_pos (by simp)]
      · simp only [beside, Fin.append_right]
        show _ = A.lowRow (m + 1) (15 * (m + 1)) i (Fin.cast _ (Fin.natAdd 1 b))
        unfold Arith.lowRow
        rw [if_neg (by simp)]
        simp [Nat.add_comm]
  · show st.next < s2.next
    rw [hs2, next_alloc, hn1]; omega
  · show st.next + 7 < s2.next
    rw [hs2, next_alloc, hn1]; omega
  · repeat refine Frame.put ?_ _ (.inr le_rfl)
    exact (h4.alloc _).alloc _

theorem log10_num {A : Arith} {x : ℝ} (h : 0 < x) : builtin A "np.log10" [.num x] st = .ok (.num (A.rnd (Real.logb 10 x))) st := by
  show builtinFilter A "np.log10" [.num x] st = _
  simp only [builtinFilter, Val.toFloat, if_pos h, pure_apply]

theorem pow_ten {A : Arith} (h : 0 < A.rnd 10) (y : ℝ) : builtin A "pow" [.int 10, .num y] st = .ok (.num (A.rnd (A.rnd 10 ^ y))) st := by
  show builtinFilter A "pow" [.int 10, .num y] st = _
  simp only [builtinFilter, Val.toFloat, Int.cast_ofNat, if_pos h, pure_apply]

theorem exact_add_num (k : ℤ) (x : ℝ) : binOp Arith.exact .add (.int k) (.num x) st = .ok (.num (k + x)) st := rfl
theorem exact_mul_num (k : ℤ) (x : ℝ) : binOp Arith.exact .mul (.int k) (.num x) st = .ok (.num (k * x)) st := rfl
theorem exact_mul_nums (x y : ℝ) : binOp Arith.exact .mul (.num x) (.num y) st = .ok (.num (x * y)) st := rfl
theorem exact_div_int (k : ℤ) (x : ℝ) (h : (k : ℝ) ≠ 0) : binOp Arith.exact .div (.num x) (.int k) st = .ok (.num (x / k)) st := by
  show M.bind (floatOp Arith.exact .div x (Arith.exact.rnd k)) (fun z => (M.pure (Val.num z) : M W Val)) st = _
  rw [floatOp, if_neg (show ¬ Arith.exact.rnd k = 0 from h)]
  rfl

/-- `create_lowpass_case(ndim)` in exact arithmetic. -/
theorem low_case (m : ℕ) : ∃ st', call (mach Arith.exact ext) (fuel + 3) (.glob "create_lowpass_case") [.int ((m + 1 : ℕ) : ℤ)] st = .ok (.ref st.next) st'
    ∧ LowAt Arith.exact st.next (st.next + 7) st' (LowpassOracle.createLowpassCase (m + 1)) ∧ Frame (fun _ => False) st st' := by
  rw [call_fun fun_create_lowpass_case rfl]
  have l1 : literal Arith.exact 25 3 false = 0.025 := by simp only [literal, Arith.exact]; norm_num
  have l2 : literal Arith.exact 125 3 false = 0.125 := by simp only [literal, Arith.exact]; norm_num
  have l3 : literal Arith.exact 12 2 false = 0.12 := by simp only [literal, Arith.exact]; norm_num
  have l4 : literal Arith.exact 20 2 false = 0.20 := by simp only [literal, Arith.exact]; norm_num
  have p1 : (0 : ℝ) < ((1 : ℤ) : ℝ) + 0.025 := by norm_num
  have p2 : (0 : ℝ) < 0.125 := by norm_num
  have ten : 0 < Arith.exact.rnd 10 := by show (0 : ℝ) < 10; norm_num
  have e20 : ((20 : ℤ) : ℝ) ≠ 0 := by norm_num
  have ht : ∀ R, execs (mach Arith.exact ext) (call (mach Arith.exact ext) (fuel + 2)) (Source.LowpassOracle.create_lowpass_case.body.take 7 ++ R) (Env.empty.set "ndim" (.int ((m + 1 : ℕ) : ℤ))) st
      = execs (mach Arith.exact ext) (call (mach Arith.exact ext) (fuel + 2)) R ((((((((Env.empty.set "ndim" (.int ((m + 1 : ℕ) : ℤ))).set "delta0_wpass" (.num 0.025)).set "delta0_wstop" (.num 0.125)).set
          "delta1" (.num (20 * Real.logb 10 (1 + 0.025)))).set "delta2" (.num (20 * Real.logb 10 0.125))).set "low_pass" (.num (10 ^ (-(20 * Real.logb 10 (1 + 0.025)) / 20)))).set
          "up_pass" (.num (10 ^ (20 * Real.logb 10 (1 + 0.025) / 20)))).set "stop_pass" (.num (10 ^ (20 * Real.logb 10 0.125 / 20)))) st := by
    intro R
    simp only [Source.LowpassOracle.create_lowpass_case, List.take, List.cons_append, List.nil_append]
    simp only [py, l1, l2, exact_add_num, exact_mul_num, log10_num p1, log10_num p2, exact_div_int _ _ e20, pow_ten ten]
    simp only [Arith.exact, Int.cast_ofNat, Int.cast_one]
  have hb : runBody (mach Arith.exact ext) (call (mach Arith.exact ext) (fuel + 2)) Source.LowpassOracle.create_lowpass_case.params Source.LowpassOracle.create_lowpass_case.body [.int ((m + 1 : ℕ) : ℤ)] Env.empty st
      = (execs (mach Arith.exact ext) (call (mach Arith.exact ext) (fuel + 2)) Source.LowpassOracle.create_lowpass_case.body (Env.empty.set "ndim" (.int ((m + 1 : ℕ) : ℤ))) st).bind result := by
    simp only [Source.LowpassOracle.create_lowpass_case, py]
  have h1 := ht (Source.LowpassOracle.create_lowpass_case.body.drop 7)
  rw [List.take_append_drop] at h1
  have hm : (0 : ℝ) ≤ ((15 * (m + 1) - 1 : ℤ) : ℝ) := by push_cast; linarith [(Nat.cast_nonneg m : (0 : ℝ) ≤ m)]
  obtain ⟨st', h2, h3, h4⟩ := low_init (A := Arith.exact) (ext := ext) (fuel := fuel) (st := st) (m := m) 0.12 0.20 (10 ^ (-(20 * Real.logb 10 (1 + 0.025)) / 20) * 10 ^ (-(20 * Real.logb 10 (1 + 0.025)) / 20))
    (10 ^ (20 * Real.logb 10 (1 + 0.025) / 20) * 10 ^ (20 * Real.logb 10 (1 + 0.025) / 20)) (10 ^ (20 * Real.logb 10 0.125 / 20) * 10 ^ (20 * Real.logb 10 0.125 / 20))
    (mul_nonneg (by norm_num) hm) (mul_nonneg (by norm_num) hm)
  refine ⟨st', ?_, ?_, h4⟩
  · rw [hb, h1]
    simp only [Source.LowpassOracle.create_lowpass_case, List.drop]
    simp only [py, l3, l4, exact_mul_nums, h2]
  · rw [Arith.exact_lowInit (Nat.succ_pos m)] at h3
    exact h3

end Ellalgo.Py
