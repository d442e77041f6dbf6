import Verif.Py.Refine.CuttingPlane
import Verif.Py.Refine.Ell

/-!
# The loops of `cutting_plane.py` on search spaces and oracles that work with arrays

What is asked of a search space (`SpaceAt`) and of an oracle (`FeasOracle`, `OptimOracle`, `OptimQOracle`) so that the loops can be followed on the heap: who owns which locations, and what a call may change.
-/

set_option linter.unusedSimpArgs false

namespace Ellalgo.Py

open CuttingPlane

variable {W O S G : Type} {n : ℕ}

/-- The classes of the library whose objects an oracle never changes. -/
def spaceClasses : List String := ["Ell", "EllStable", "EllCalc", "EllCalcCore", "Options", "BSearchAdaptor"]

/-- A call that changes nothing but the locations in `own` and takes new locations. -/
structure Step (own : ℕ → Prop) (st st' : St W) : Prop where
  next : st.next ≤ st'.next
  same : ∀ k < st.next, ¬ own k → st'.heap k = st.heap k

/-- The gradient of a cut is not in one of the locations `cells`. -/
def Away (cells : ℕ → Prop) (w : Val) : Prop := ∀ lg vb, w = .tuple [.ref lg, vb] → ¬ cells lg

/-- A search space at `vs` whose own locations, apart from the objects of its classes, are `cells`. Unless `free` holds, the gradients that it is given must not be its own arrays. -/
structure SpaceAt (A : Arith) (ext : ℕ → String → List Val → M W Val) (fuel : ℕ) (vs : Val) (cells : ℕ → Prop) (sp : SearchSpace S (Vec n) (Cut n) ℝ) (P : St W → S → Prop) (free : Prop := True) : Prop where
  bound : ∀ {st s}, P st s → ∀ k, cells k → k < st.next
  noOptions : ∀ {st s}, P st s → ∀ k, cells k → ∀ attrs, st.heap k ≠ some (.inst "Options" attrs)
  stable : ∀ {st st' s}, P st s → st.next ≤ st'.next → (∀ k < st.next, (cells k ∨ ∃ cls attrs, cls ∈ spaceClasses ∧ st.heap k = some (.inst cls attrs)) → st'.heap k = st.heap k) → P st' s
  has : ∀ {st s}, P st s → ∀ m ∈ ["xc", "tsq", "update_bias_cut", "update_central_cut", "update_q"], Has (mach A ext) vs m st
  xc : ∀ {st s}, P st s → ∃ lx, call (mach A ext) fuel (.meth vs "xc") [] st = .ok (.ref lx) st ∧ lx < st.next ∧ st.heap lx = some (.vec n (sp.xc s)) ∧ cells lx
  tsq : ∀ {st s}, P st s → call (mach A ext) fuel (.meth vs "tsq") [] st = .ok (.num (sp.tsq s)) st
  bias : ∀ {st s c w}, P st s → IsCut st c w → (free ∨ Away cells w) →
    ∃ st', call (mach A ext) fuel (.meth vs "update_bias_cut") [w] st = outcome statusVal (sp.updateBiasCut s c).2 st' ∧ P st' (sp.updateBiasCut s c).1 ∧ Frame cells st st'
  central : ∀ {st s c w}, P st s → IsCut st c w → (free ∨ Away cells w) →
    ∃ st', call (mach A ext) fuel (.meth vs "update_central_cut") [w] st = outcome statusVal (sp.updateCentralCut s c).2 st' ∧ P st' (sp.updateCentralCut s c).1 ∧ Frame cells st st'
  q : ∀ {st s c w}, P st s → IsCut st c w → (free ∨ Away cells w) → (∀ bs, c.2 ≠ .seq (none :: bs)) →
    ∃ st', call (mach A ext) fuel (.meth vs "update_q") [w] st = outcome statusVal (sp.updateQ s c).2 st' ∧ P st' (sp.updateQ s c).1 ∧ Frame cells st st'

/-- An oracle: `Q st o` says that it is in the state `o`, `own st` are the locations that it may change. -/
structure OracleAt (own : St W → ℕ → Prop) (Q : St W → O → Prop) : Prop where
  bound : ∀ {st o}, Q st o → ∀ k, own st k → k < st.next
  foreign : ∀ {st o}, Q st o → ∀ k, own st k → ∀ cls attrs, st.heap k = some (.inst cls attrs) → cls ∉ spaceClasses
  stable : ∀ {st st' o}, Q st o → Frame (fun k => ¬ own st k) st st' → Q st' o ∧ ∀ k, own st' k → own st k

/-- What a call of a method of the oracle may change. -/
def Moves (own : St W → ℕ → Prop) (st st' : St W) : Prop := Step (own st) st st' ∧ ∀ k, own st' k → own st k ∨ st.next ≤ k

/-- The gradient of a cut is in a location of the oracle or in a new one. -/
def OwnCut (own : St W → ℕ → Prop) (st st' : St W) (w : Val) : Prop := ∀ lg vb, w = .tuple [.ref lg, vb] → own st' lg ∨ st.next ≤ lg

/-- `assess_feas`, given an array with a point. Unless `free` holds, the gradient is an array of the oracle or a new one, and never the array of the point. -/
structure FeasOracle (A : Arith) (ext : ℕ → String → List Val → M W Val) (fuel : ℕ) (vo : Val) (own : St W → ℕ → Prop) (omega : OracleFeas O (Vec n) (Cut n)) (Q : St W → O → Prop) (free : Prop := True) : Prop
    extends OracleAt own Q where
  has : ∀ {st o}, Q st o → Has (mach A ext) vo "assess_feas" st
  assess : ∀ {st o lx x}, Q st o → st.heap lx = some (.vec n x) → lx < st.next →
    match omega o x with
    | (o1, .error f) => ∃ st', call (mach A ext) fuel (.meth vo "assess_feas") [.ref lx] st = .exc (excOf f) st' ∧ Q st' o1 ∧ Moves own st st'
    | (o1, .ok none) => ∃ st', call (mach A ext) fuel (.meth vo "assess_feas") [.ref lx] st = .ok .none st' ∧ Q st' o1 ∧ Moves own st st'
    | (o1, .ok (some c)) => ∃ w st', call (mach A ext) fuel (.meth vo "assess_feas") [.ref lx] st = .ok w st' ∧ Q st' o1 ∧ Moves own st st' ∧ IsCut st' c w ∧ (free ∨ OwnCut own st st' w)

/-- `assess_optim`, given an array with a point and a target. -/
structure OptimOracle (A : Arith) (ext : ℕ → String → List Val → M W Val) (fuel : ℕ) (vo : Val) (own : St W → ℕ → Prop) (omega : OracleOptim O (Vec n) (Cut n) G) (isG : G → Val → Prop)
    (Q : St W → O → Prop) (free : Prop := True) : Prop extends OracleAt own Q where
  has : ∀ {st o}, Q st o → Has (mach A ext) vo "assess_optim" st
  num : ∀ {g v}, isG g v → v.isNone = false
  assess : ∀ {st o lx x g vg}, Q st o → st.heap lx = some (.vec n x) → lx < st.next → isG g vg →
    match omega o x g with
    | (o1, .error f) => ∃ st', call (mach A ext) fuel (.meth vo "assess_optim") [.ref lx, vg] st = .exc (excOf f) st' ∧ Q st' o1 ∧ Moves own st st'
    | (o1, .ok (c, none)) => ∃ w st', call (mach A ext) fuel (.meth vo "assess_optim") [.ref lx, vg] st = .ok (.tuple [w, .none]) st' ∧ Q st' o1 ∧ Moves own st st' ∧ IsCut st' c w ∧ (free ∨ OwnCut own st st' w)
    | (o1, .ok (c, some g1)) => ∃ w vg1 st', call (mach A ext) fuel (.meth vo "assess_optim") [.ref lx, vg] st = .ok (.tuple [w, vg1]) st' ∧ Q st' o1 ∧ Moves own st st' ∧ IsCut st' c w ∧ (free ∨ OwnCut own st st' w) ∧ isG g1 vg1

/-- `assess_optim_q`, given an array with a point, a target and the flag. Of the locations of the oracle only those in `wr` are written to. The point `x_q` that comes with a better target is a new array or one of the oracle, to which
the oracle does not write. -/
structure OptimQOracle (A : Arith) (ext : ℕ → String → List Val → M W Val) (fuel : ℕ) (vo : Val) (own wr : St W → ℕ → Prop) (omega : OracleOptimQ O (Vec n) (Cut n) G) (isG : G → Val → Prop)
    (Q : St W → O → Prop) (free : Prop := True) : Prop extends OracleAt own Q where
  keep : ∀ {st st' o}, Q st o → Frame (fun k => ¬ own st k) st st' → ∀ k, wr st' k → wr st k
  has : ∀ {st o}, Q st o → Has (mach A ext) vo "assess_optim_q" st
  num : ∀ {g v}, isG g v → v.isNone = false
  assess : ∀ {st o lx x g vg b}, Q st o → st.heap lx = some (.vec n x) → lx < st.next → isG g vg →
    match omega o x g b with
    | (o1, .error f) => ∃ st', call (mach A ext) fuel (.meth vo "assess_optim_q") [.ref lx, vg, .bool b] st = .exc (excOf f) st' ∧ Q st' o1 ∧ Moves own st st' ∧ Moves wr st st'
    | (o1, .ok a) => ∃ w vq vg1 vm st', call (mach A ext) fuel (.meth vo "assess_optim_q") [.ref lx, vg, .bool b] st = .ok (.tuple [w, vq, vg1, vm]) st'
        ∧ Q st' o1 ∧ Moves own st st' ∧ Moves wr st st' ∧ IsCut st' a.cut w ∧ (free ∨ OwnCut own st st' w) ∧ (∀ bs, a.cut.2 ≠ .seq (none :: bs)) ∧ (∀ st, truthy vm st = Res.ok a.moreAlt (st : St W))
        ∧ match a.gamma1 with
          | none => vg1 = .none
          | some g1 => isG g1 vg1 ∧ ∃ k, vq = .ref k ∧ (own st k ∨ st.next ≤ k) ∧ k < st'.next ∧ st'.heap k = some (.vec n a.xq) ∧ ¬ wr st' k

/-- The value that a loop that started in the state `st0` keeps: `None`, or an array that is new or one of `old`, and to which nobody writes. -/
def Kept (old : ℕ → Prop) (wr : St W → ℕ → Prop) (cells : ℕ → Prop) (st0 st : St W) (xb : Option (Vec n)) (vb : Val) : Prop :=
  match xb with
  | none => vb = .none
  | some x => ∃ k, vb = .ref k ∧ (old k ∨ st0.next ≤ k) ∧ k < st.next ∧ st.heap k = some (.vec n x) ∧ ¬ cells k ∧ ¬ wr st k

/-- Between two states only the locations in `cells`, those of the oracle and new ones have changed. -/
structure Since (own : St W → ℕ → Prop) (cells : ℕ → Prop) (st0 st : St W) : Prop where
  next : st0.next ≤ st.next
  same : ∀ k < st0.next, ¬ cells k → ¬ own st0 k → st.heap k = st0.heap k ∧ ¬ own st k

theorem Since.refl (own : St W → ℕ → Prop) (cells : ℕ → Prop) (st : St W) : Since own cells st st := ⟨le_rfl, fun _ _ _ h => ⟨rfl, h⟩⟩

theorem Since.moves {own : St W → ℕ → Prop} {cells : ℕ → Prop} {st0 st st' : St W} (h : Since own cells st0 st) (hm : Moves own st st') : Since own cells st0 st' :=
  ⟨h.next.trans hm.1.next, fun k hk hc ho => by
    obtain ⟨h1, h2⟩ := h.same k hk hc ho
    exact ⟨(hm.1.same k (hk.trans_le h.next) h2).trans h1, fun h3 => (hm.2 k h3).elim h2 fun h4 => absurd (hk.trans_le h.next) (not_lt.mpr h4)⟩⟩

theorem Since.frame {own : St W → ℕ → Prop} {cells : ℕ → Prop} {st0 st st' : St W} (h : Since own cells st0 st) (hf : Frame cells st st') (hown : ∀ k, own st' k → own st k) : Since own cells st0 st' :=
  ⟨h.next.trans hf.next, fun k hk hc ho => by
    obtain ⟨h1, h2⟩ := h.same k hk hc ho
    exact ⟨(hf.same k (hk.trans_le h.next) hc).trans h1, fun h3 => h2 (hown k h3)⟩⟩

/-- The state of a run that started in the state `st0`. -/
structure Running (A : Arith) (old : ℕ → Prop) (own wr : St W → ℕ → Prop) (cells : ℕ → Prop) (P : St W → S → Prop) (Q : St W → O → Prop) (vopt : Val) (opts : Options ℝ) (st0 : St W)
    (st : St W) (o : O) (s : S) (xb : Option (Vec n)) (vb : Val) : Prop where
  space : P st s
  oracle : Q st o
  options : OptionsAt A st vopt opts
  apart : ∀ k, cells k → ¬ own st k
  kept : Kept old wr cells st0 st xb vb
  optlt : ∀ k, vopt = .ref k → k < st.next
  since : Since own cells st0 st

/-- An array with a point, at a location of the space. -/
def IsPoint (cells : ℕ → Prop) (st : St W) (x : Vec n) (v : Val) : Prop := ∃ l, v = .ref l ∧ l < st.next ∧ st.heap l = some (.vec n x) ∧ cells l

/-- Cuts that the space takes. -/
def IsCutFor (free : Prop) (cells : ℕ → Prop) (st : St W) (c : Cut n) (v : Val) : Prop := IsCut st c v ∧ (free ∨ Away cells v)

/-- Cuts that `update_q` takes. -/
def IsCutQ (free : Prop) (cells : ℕ → Prop) (st : St W) (c : Cut n) (v : Val) : Prop := IsCutFor free cells st c v ∧ ∀ bs, c.2 ≠ .seq (none :: bs)

theorem IsCut.isNone {st : St W} {c : Cut n} {v : Val} (h : IsCut st c v) : v.isNone = false := by
  obtain ⟨lg, vb, rfl, -⟩ := h; rfl

theorem IsCut.alloc {st : St W} {c : Cut n} {v : Val} (h : IsCut st c v) (o : Obj) : IsCut (st.alloc o) c v := by
  obtain ⟨lg, vb, rfl, hlt, hg, hb⟩ := h
  exact ⟨lg, vb, rfl, hlt.trans (Nat.lt_succ_self _), (heap_alloc_ne hlt.ne _).trans hg, hb.mono (Nat.le_succ _) fun k hk _ _ _ => heap_alloc_ne hk.ne _⟩

theorem OptionsAt.mono {A : Arith} {st st' : St W} {v : Val} {opts : Options ℝ} (h : OptionsAt A st v opts)
    (hs : ∀ l attrs, v = .ref l → st.heap l = some (.inst "Options" attrs) → st'.heap l = st.heap l) : OptionsAt A st' v opts := by
  obtain ⟨l, attrs, rfl, hl, h⟩ := h
  exact ⟨l, attrs, rfl, (hs l attrs rfl hl).trans hl, h⟩

section

variable {A : Arith} {ext : ℕ → String → List Val → M W Val} {fuel : ℕ} {vs vo vopt : Val} {cells : ℕ → Prop} {old : ℕ → Prop} {own wr : St W → ℕ → Prop} {sp : SearchSpace S (Vec n) (Cut n) ℝ} {P : St W → S → Prop}
  {Q : St W → O → Prop} {opts : Options ℝ} {st0 : St W} {free : Prop}

/-- After a call of the oracle. -/
theorem Running.moves (hP : SpaceAt A ext fuel vs cells sp P free) (hQ : OracleAt own Q) {st st' : St W} {o o' : O} {s : S} {xb : Option (Vec n)} {vb : Val}
    (h : Running A old own wr cells P Q vopt opts st0 st o s xb vb) (hq : Q st' o') (hm : Moves own st st') (hw : Moves wr st st') : Running A old own wr cells P Q vopt opts st0 st' o' s xb vb := by
  obtain ⟨hm, hown⟩ := hm
  refine ⟨hP.stable h.space hm.next fun k hk hc => hm.same k hk ?_, hq, h.options.mono fun l attrs hl hh => hm.same l (h.optlt l hl) fun ho => ?_, fun k hk ho => ?_, ?_, fun k hk => (h.optlt k hk).trans_le hm.next, h.since.moves ⟨hm, hown⟩⟩
  · rcases hc with hc | ⟨cls, attrs, hc, hh⟩
    · exact h.apart k hc
    · exact fun ho => hQ.foreign h.oracle k ho cls attrs hh hc
  · exact hQ.foreign h.oracle l ho _ _ hh (by simp [spaceClasses])
  · rcases hown k ho with h' | h'
    · exact h.apart k hk h'
    · exact absurd (hP.bound h.space k hk) (by omega)
  · have hk := h.kept
    unfold Kept at hk ⊢
    cases xb with
    | none => exact hk
    | some x =>
      obtain ⟨k, rfl, h0, hlt, hx, hc, ho⟩ := hk
      refine ⟨k, rfl, h0, hlt.trans_le hm.next, (hw.1.same k hlt ho).trans hx, hc, fun ho' => ?_⟩
      rcases hw.2 k ho' with h' | h'
      · exact ho h'
      · omega

/-- The gradients that the oracle returns are not arrays of the space. -/
theorem Running.away (hP : SpaceAt A ext fuel vs cells sp P free) {st st' : St W} {o : O} {s : S} {xb : Option (Vec n)} {vb w : Val}
    (h : Running A old own wr cells P Q vopt opts st0 st o s xb vb) (ha : ∀ k, cells k → ¬ own st' k) (hw : OwnCut own st st' w) : Away cells w := fun lg vb hl hc =>
  (hw lg vb hl).elim (ha lg hc) fun hk => absurd (hP.bound h.space lg hc) (by omega)

/-- What the space changes is not of the oracle. -/
theorem Running.others {st st' : St W} {o : O} {s : S} {xb : Option (Vec n)} {vb : Val} (h : Running A old own wr cells P Q vopt opts st0 st o s xb vb) (hf : Frame cells st st') : Frame (fun k => ¬ own st k) st st' :=
  ⟨hf.next, hf.world, fun k hk ho => hf.same k hk fun hc => ho fun ho' => h.apart k hc ho'⟩

/-- After a call of the space. -/
theorem Running.update (hP : SpaceAt A ext fuel vs cells sp P free) (hQ : OracleAt own Q) {st st' : St W} {o : O} {s s' : S} {xb : Option (Vec n)} {vb : Val}
    (h : Running A old own wr cells P Q vopt opts st0 st o s xb vb) (hp : P st' s') (hf : Frame cells st st') (hw : ∀ k, wr st' k → wr st k) : Running A old own wr cells P Q vopt opts st0 st' o s' xb vb := by
  obtain ⟨hq, hown⟩ := hQ.stable h.oracle (st' := st') (h.others hf)
  refine ⟨hp, hq, h.options.mono fun l attrs hl hh => hf.same l (h.optlt l hl) fun hc => hP.noOptions h.space l hc attrs hh, fun k hk ho => h.apart k hk (hown k ho), ?_,
    fun k hk => (h.optlt k hk).trans_le hf.next, h.since.frame hf hown⟩
  have hk := h.kept
  unfold Kept at hk ⊢
  cases xb with
  | none => exact hk
  | some x =>
    obtain ⟨k, rfl, h0, hlt, hx, hc, ho⟩ := hk
    exact ⟨k, rfl, h0, hlt.trans_le hf.next, (hf.same k hlt hc).trans hx, hc, fun ho' => ho (hw k ho')⟩

/-- A new array is kept. -/
theorem Running.keep (hP : SpaceAt A ext fuel vs cells sp P free) (hQ : OracleAt own Q) {st : St W} {o : O} {s : S} {xb : Option (Vec n)} {vb : Val}
    (h : Running A old own own cells P Q vopt opts st0 st o s xb vb) (x : Vec n) : Running A old own own cells P Q vopt opts st0 (st.alloc (.vec n x)) o s (some x) (.ref st.next) := by
  obtain ⟨hq, hown⟩ := hQ.stable h.oracle (st' := st.alloc (.vec n x)) ((Frame.refl _ _).alloc _)
  refine ⟨hP.stable h.space (Nat.le_succ _) fun k hk _ => heap_alloc_ne hk.ne _, hq, h.options.mono fun l attrs hl _ => heap_alloc_ne (h.optlt l hl).ne _, fun k hk ho => h.apart k hk (hown k ho), ?_,
    fun k hk => (h.optlt k hk).trans (Nat.lt_succ_self _), h.since.frame ((Frame.refl _ _).alloc _) hown⟩
  exact ⟨st.next, rfl, .inr h.since.next, Nat.lt_succ_self _, heap_alloc_self _, fun hc => absurd (hP.bound h.space _ hc) (lt_irrefl _), fun ho => absurd (hQ.bound h.oracle _ (hown _ ho)) (lt_irrefl _)⟩

variable (A ext fuel vs vo vopt old own wr cells P Q opts st0)

theorem Running.sim (hP : SpaceAt A ext fuel vs cells sp P free) : Sim A ext fuel vs vopt sp opts (Running A old own wr cells P Q vopt opts st0) (IsPoint (n := n) cells) where
  options h := h.options
  hasXc h := hP.has h.space _ (by simp)
  hasTsq h := hP.has h.space _ (by simp)
  xc h := by
    obtain ⟨lx, h1, h2, h3, h4⟩ := hP.xc h.space
    exact ⟨_, h1, lx, rfl, h2, h3, h4⟩
  tsq h := ⟨_, hP.tsq h.space, rfl⟩

theorem Running.biasSim (hP : SpaceAt A ext fuel vs cells sp P free) (hQ : OracleAt own Q) :
    UpdateSim A ext fuel vs "update_bias_cut" sp.updateBiasCut (Running (n := n) A old own own cells P Q vopt opts st0) (IsCutFor free cells) where
  has h := hP.has h.space _ (by simp)
  update h hc := by
    obtain ⟨st', h1, h2, h3⟩ := hP.bias h.space hc.1 hc.2
    exact ⟨st', h1, h.update hP hQ h2 h3 (hQ.stable h.oracle (h.others h3)).2⟩

theorem Running.centralSim (hP : SpaceAt A ext fuel vs cells sp P free) (hQ : OracleAt own Q) :
    UpdateSim A ext fuel vs "update_central_cut" sp.updateCentralCut (Running (n := n) A old own own cells P Q vopt opts st0) (IsCutFor free cells) where
  has h := hP.has h.space _ (by simp)
  update h hc := by
    obtain ⟨st', h1, h2, h3⟩ := hP.central h.space hc.1 hc.2
    exact ⟨st', h1, h.update hP hQ h2 h3 (hQ.stable h.oracle (h.others h3)).2⟩

theorem Running.qSim (hP : SpaceAt A ext fuel vs cells sp P free) {omega : OracleOptimQ O (Vec n) (Cut n) G} {isG : G → Val → Prop} (hQ : OptimQOracle A ext fuel vo own wr omega isG Q free) :
    UpdateSim A ext fuel vs "update_q" sp.updateQ (Running (n := n) A old own wr cells P Q vopt opts st0) (IsCutQ free cells) where
  has h := hP.has h.space _ (by simp)
  update h hc := by
    obtain ⟨st', h1, h2, h3⟩ := hP.q h.space hc.1.1 hc.1.2 hc.2
    exact ⟨st', h1, h.update hP hQ.toOracleAt h2 h3 (hQ.keep h.oracle (h.others h3))⟩

theorem Running.copySim (hP : SpaceAt A ext fuel vs cells sp P free) (hQ : OracleAt own Q) : CopySim sp (Running A old own own cells P Q vopt opts st0) (IsPoint (n := n) cells) (IsCutFor free cells) where
  copy {st o s xb vb v} h hx := by
    obtain ⟨l, rfl, hlt, hl, -⟩ := hx
    exact ⟨_, _, by simp only [copyOf, py, hl], h.keep hP hQ _, fun c vc hc => ⟨hc.1.alloc _, hc.2⟩⟩

theorem Running.feasSim (hP : SpaceAt A ext fuel vs cells sp P free) {omega : OracleFeas O (Vec n) (Cut n)} (hQ : FeasOracle A ext fuel vo own omega Q free) :
    FeasSim A ext fuel vo vs omega sp (Running A old own own cells P Q vopt opts st0) (IsPoint cells) (IsCutFor free cells) where
  has h := hQ.has h.oracle
  assess {st o s xb vb v} h hx := by
    obtain ⟨l, rfl, hlt, hl, -⟩ := hx
    have ha := hQ.assess h.oracle hl hlt
    rcases hom : omega o (sp.xc s) with ⟨o1, f | _ | c⟩ <;> rw [hom] at ha <;> dsimp only at ha ⊢
    · obtain ⟨st', h1, h2, h3⟩ := ha
      exact ⟨st', h1, h.moves hP hQ.toOracleAt h2 h3 h3⟩
    · obtain ⟨st', h1, h2, h3⟩ := ha
      exact ⟨st', h1, h.moves hP hQ.toOracleAt h2 h3 h3⟩
    · obtain ⟨w, st', h1, h2, h3, h4, h5⟩ := ha
      have hr := h.moves hP hQ.toOracleAt h2 h3 h3
      exact ⟨w, st', h1, hr, ⟨h4, h5.imp_right (h.away hP hr.apart)⟩, h4.isNone⟩

variable {isG : G → Val → Prop}

theorem Running.optimSim (hP : SpaceAt A ext fuel vs cells sp P free) {omega : OracleOptim O (Vec n) (Cut n) G} (hQ : OptimOracle A ext fuel vo own omega isG Q free) :
    OptimSim A ext fuel vo omega sp (Running A old own own cells P Q vopt opts st0) (IsPoint cells) (IsCutFor free cells) isG where
  has h := hQ.has h.oracle
  num := hQ.num
  assess {st o s xb vb v g vg} h hx hg := by
    obtain ⟨l, rfl, hlt, hl, -⟩ := hx
    have ha := hQ.assess h.oracle hl hlt hg
    rcases hom : omega o (sp.xc s) g with ⟨o1, f | ⟨c, _ | g1⟩⟩ <;> rw [hom] at ha <;> dsimp only at ha ⊢
    · obtain ⟨st', h1, h2, h3⟩ := ha
      exact ⟨st', h1, h.moves hP hQ.toOracleAt h2 h3 h3⟩
    · obtain ⟨w, st', h1, h2, h3, h4, h5⟩ := ha
      have hr := h.moves hP hQ.toOracleAt h2 h3 h3
      exact ⟨w, st', h1, hr, h4, h5.imp_right (h.away hP hr.apart)⟩
    · obtain ⟨w, vg1, st', h1, h2, h3, h4, h5, h6⟩ := ha
      have hr := h.moves hP hQ.toOracleAt h2 h3 h3
      exact ⟨w, vg1, st', h1, hr, ⟨h4, h5.imp_right (h.away hP hr.apart)⟩, h6⟩

theorem Running.optimQSim (hP : SpaceAt A ext fuel vs cells sp P free) {omega : OracleOptimQ O (Vec n) (Cut n) G} (hQ : OptimQOracle A ext fuel vo own wr omega isG Q free) :
    OptimQSim A ext fuel vo omega sp (Running A (own st0) own wr cells P Q vopt opts st0) (IsPoint cells) (IsCutQ free cells) isG where
  has h := hQ.has h.oracle
  num := hQ.num
  assess {st o s xb vb v g vg b} h hx hg := by
    obtain ⟨l, rfl, hlt, hl, -⟩ := hx
    have ha := hQ.assess (b := b) h.oracle hl hlt hg
    rcases hom : omega o (sp.xc s) g b with ⟨o1, f | ⟨c, xq, g1, more⟩⟩ <;> rw [hom] at ha <;> dsimp only at ha ⊢
    · obtain ⟨st', h1, h2, h3, h3'⟩ := ha
      exact ⟨st', h1, h.moves hP hQ.toOracleAt h2 h3 h3'⟩
    · obtain ⟨w, vq, vg1, vm, st', h1, h2, h3, h3', h4, h4', h5, h6, h7⟩ := ha
      have hr := h.moves hP hQ.toOracleAt h2 h3 h3'
      refine ⟨w, vq, vg1, vm, st', h1, ⟨⟨h4, h4'.imp_right (h.away hP hr.apart)⟩, h5⟩, h6, ?_⟩
      cases g1 with
      | none => exact ⟨h7, hr⟩
      | some g1 =>
        obtain ⟨h7, k, rfl, hk1, hk2, hk3, hk4⟩ := h7
        have hc : ¬ cells k := fun hc => hk1.elim (h.apart k hc) fun hk1 => absurd (hP.bound h.space k hc) (by omega)
        have hk0 : own st0 k ∨ st0.next ≤ k := by
          rcases hk1 with hk1 | hk1
          · by_contra hno
            exact (h.since.same k (by by_contra hlt; exact hno (.inr (not_lt.mp hlt))) hc fun ho => hno (.inl ho)).2 hk1
          · exact .inr (h.since.next.trans hk1)
        exact ⟨h7, hr.space, hr.oracle, hr.options, hr.apart, ⟨k, rfl, hk0, hk2, hk3, hc, hk4⟩, hr.optlt, hr.since⟩

end

/-! ### `Ell` as a search space -/

/-- `ell.py` on machine numbers as a search space. -/
noncomputable def _root_.Ellalgo.Arith.space (A : Arith) (n : ℕ) : SearchSpace (Ell n) (Vec n) (Cut n) ℝ where
  xc e := e.xc
  tsq e := e.tsq
  setXc := Ell.setXc
  updateBiasCut := A.updateBiasCut
  updateCentralCut := A.updateCentralCut
  updateQ := A.updateQ

theorem ell_space {A : Arith} (hA : Literals A) (ext : ℕ → String → List Val → M W Val) (fuel l lm lx : ℕ) {free : Prop} :
    SpaceAt A ext (fuel + 7) (.ref l) (fun k => k = l ∨ k = lm ∨ k = lx) (A.space n) (fun st e => EllAt A st l lm lx e) free where
  bound h k hk := by rcases hk with rfl | rfl | rfl; exacts [h.ltl, h.ltm, h.ltx]
  noOptions h k hk attrs hh := by
    obtain ⟨a, lc, hl, -, -⟩ := h.obj
    rcases hk with rfl | rfl | rfl
    · rw [hl] at hh; simp at hh
    · rw [h.mq] at hh; simp at hh
    · rw [h.xc] at hh; simp at hh
  stable {st st' e} h hn hs := by
    obtain ⟨⟨attrs, lc, hl, ha, hc⟩, hmq, hxc, hlt, hltm, hltx⟩ := h
    refine ⟨⟨attrs, lc, (hs l hlt (.inl (.inl rfl))).trans hl, ha, hc.mono hn fun k hk cls attrs h1 h2 => hs k hk (.inr ⟨cls, attrs, ?_, h2⟩)⟩, ?_, ?_, hlt.trans_le hn, hltm.trans_le hn, hltx.trans_le hn⟩
    · rcases h1 with rfl | rfl <;> simp [spaceClasses]
    · exact (hs lm hltm (.inl (.inr (.inl rfl)))).trans hmq
    · exact (hs lx hltx (.inl (.inr (.inr rfl)))).trans hxc
  has {st e} h m hm cl := by
    obtain ⟨attrs, lc, hl, ha, -⟩ := h.obj
    have hm' : m ∉ ["helper", "_mq", "_xc", "_kappa", "_tsq", "no_defer_trick"] := by
      simp only [List.mem_cons, List.not_mem_nil, or_false] at hm
      rcases hm with rfl | rfl | rfl | rfl | rfl <;> decide
    have := ha.only m hm'
    simp only [List.mem_cons, List.not_mem_nil, or_false] at hm
    rcases hm with rfl | rfl | rfl | rfl | rfl <;> simp only [py, hl, this]
  xc h := ⟨lx, ell_xc h (fuel + 6), h.ltx, h.xc, .inr (.inr rfl)⟩
  tsq h := ell_tsq h (fuel + 6)
  bias h hc _ := ell_update_bias_cut hA h hc fuel
  central h hc _ := ell_update_central_cut hA h hc (fuel + 2)
  q h hc _ hb := ell_update_q hA h hc fuel hb

end Ellalgo.Py
