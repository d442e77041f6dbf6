import Verif.Py.Refine.Adaptor

/-!
# Oracles of the user

For every oracle of `Model/CuttingPlane` there is an object of the user that meets the contracts of `Py/Refine/Runs`: it keeps the state of the oracle elsewhere (`world`) and answers with new arrays.
-/

set_option linter.unusedSimpArgs false

namespace Ellalgo.Py

open CuttingPlane

variable {O G : Type} {n : ℕ}

/-- An offset as the user writes it. -/
def choiceVal : CutChoice → Val
  | .scalar b => .num b
  | .seq bs => .tuple (bs.map offsetVal)

theorem isBeta_choice {W : Type} (st : St W) (b : CutChoice) : IsBeta st b (choiceVal b) := by
  cases b with
  | scalar b => exact .scalar b
  | seq bs => exact .tuple bs

/-- The state with another state of the oracle. -/
def St.setWorld (st : St O) (o : O) : St O := { st with world := o }

/-- A cut in a new array. -/
def newCut (c : Cut n) (st : St O) : Val × St O := (.tuple [.ref st.next, choiceVal c.2], st.alloc (.vec n c.1))

/-- `assess_feas` of the user. -/
def userFeas (omega : OracleFeas O (Vec n) (Cut n)) (x : Vec n) : M O Val := fun st =>
  match omega st.world x with
  | (o1, .error f) => .exc (excOf f) (st.setWorld o1)
  | (o1, .ok none) => .ok .none (st.setWorld o1)
  | (o1, .ok (some c)) => .ok (newCut c (st.setWorld o1)).1 (newCut c (st.setWorld o1)).2

/-- `assess_optim` of the user. -/
def userOptim (gv : G → Val) (omega : OracleOptim O (Vec n) (Cut n) G) (x : Vec n) (g : G) : M O Val := fun st =>
  match omega st.world x g with
  | (o1, .error f) => .exc (excOf f) (st.setWorld o1)
  | (o1, .ok (c, none)) => .ok (.tuple [(newCut c (st.setWorld o1)).1, .none]) (newCut c (st.setWorld o1)).2
  | (o1, .ok (c, some g1)) => .ok (.tuple [(newCut c (st.setWorld o1)).1, gv g1]) (newCut c (st.setWorld o1)).2

/-- `assess_optim_q` of the user. -/
def userOptimQ (gv : G → Val) (omega : OracleOptimQ O (Vec n) (Cut n) G) (x : Vec n) (g : G) (b : Bool) : M O Val := fun st =>
  match omega st.world x g b with
  | (o1, .error f) => .exc (excOf f) (st.setWorld o1)
  | (o1, .ok a) => .ok (.tuple [(newCut a.cut (st.setWorld o1)).1, .ref (st.next + 1), match a.gamma1 with | none => .none | some g1 => gv g1, .bool a.moreAlt])
      ((newCut a.cut (st.setWorld o1)).2.alloc (.vec n a.xq))

/-- The array at a location. -/
def withVec (n : ℕ) (lx : ℕ) (f : Vec n → M O Val) : M O Val := fun st =>
  match st.heap lx with
  | some (.vec m x) => if h : n = m then f (fun i => x (i.cast h)) st else .stuck
  | _ => .stuck

theorem withVec_apply {lx : ℕ} {f : Vec n → M O Val} {st : St O} {x : Vec n} (h : st.heap lx = some (.vec n x)) : withVec n lx f st = f x st := by
  simp [withVec, h]

/-- An object of the user with all methods; `dec` reads a target. -/
def userExt (gv : G → Val) (dec : Val → G) (feas : OracleFeas O (Vec n) (Cut n)) (upd : O → G → O) (optim : OracleOptim O (Vec n) (Cut n) G) (optimQ : OracleOptimQ O (Vec n) (Cut n) G) :
    ℕ → String → List Val → M O Val := fun _ m args =>
  match m, args with
  | "assess_feas", [.ref lx] => withVec n lx (userFeas feas)
  | "assess_optim", [.ref lx, vg] => withVec n lx fun x => userOptim gv optim x (dec vg)
  | "assess_optim_q", [.ref lx, vg, .bool b] => withVec n lx fun x => userOptimQ gv optimQ x (dec vg) b
  | "update", [vg] => fun st => .ok .none (st.setWorld (upd st.world (dec vg)))
  | _, _ => M.stuck

/-- The object is at the location `l`. -/
def UserAt (l : ℕ) (st : St O) (o : O) : Prop := l < st.next ∧ st.heap l = some .user ∧ st.world = o

variable (A : Arith) (fuel l : ℕ) (gv : G → Val) (dec : Val → G) (feas : OracleFeas O (Vec n) (Cut n)) (upd : O → G → O) (optim : OracleOptim O (Vec n) (Cut n) G) (optimQ : OracleOptimQ O (Vec n) (Cut n) G)

theorem user_at : OracleAt (fun _ : St O => (· = l)) (UserAt l) where
  bound h k hk := hk ▸ h.1
  foreign h k hk cls attrs hh := by rw [hk, h.2.1] at hh; simp at hh
  stable h hf := ⟨⟨h.1.trans_le hf.next, (hf.same l h.1 (by simp)).trans h.2.1, hf.world.trans h.2.2⟩, fun _ h => h⟩

theorem user_has {A : Arith} {ext : ℕ → String → List Val → M O Val} {l : ℕ} {st : St O} {o : O} (h : UserAt l st o) (m : String) : Has (mach A ext) (.ref l) m st := by
  intro cl
  simp only [py, h.2.1]

variable {A fuel l gv dec feas upd optim optimQ} {free : Prop}

theorem UserAt.newCut {st : St O} {o o1 : O} (h : UserAt l st o) (c : Cut n) :
    UserAt l (Py.newCut c (st.setWorld o1)).2 o1 ∧ Moves (fun _ => (· = l)) st (Py.newCut c (st.setWorld o1)).2 ∧ IsCut (Py.newCut c (st.setWorld o1)).2 c (Py.newCut c (st.setWorld o1)).1
      ∧ (free ∨ OwnCut (fun _ => (· = l)) st (Py.newCut c (st.setWorld o1)).2 (Py.newCut c (st.setWorld o1)).1) := by
  refine ⟨⟨h.1.trans (Nat.lt_succ_self _), (heap_alloc_ne (st := st.setWorld o1) h.1.ne _).trans h.2.1, rfl⟩, ⟨⟨Nat.le_succ _, fun k hk _ => heap_alloc_ne (st := st.setWorld o1) hk.ne _⟩, fun _ h => .inl h⟩,
    ⟨st.next, _, rfl, Nat.lt_succ_self _, heap_alloc_self (st := st.setWorld o1) _, isBeta_choice _ _⟩, .inr fun lg vb h => .inr ?_⟩
  simp only [Py.newCut, Val.tuple.injEq, List.cons.injEq, Val.ref.injEq] at h
  exact h.1.le

theorem UserAt.setWorld {st : St O} {o o1 : O} (h : UserAt l st o) : UserAt l (st.setWorld o1) o1 ∧ Moves (fun _ => (· = l)) st (st.setWorld o1) :=
  ⟨⟨h.1, h.2.1, rfl⟩, ⟨le_rfl, fun _ _ _ => rfl⟩, fun _ h => .inl h⟩

/-- The user's object meets the contract for `assess_feas`. -/
theorem user_feas : FeasOracle A (userExt gv dec feas upd optim optimQ) (fuel + 1) (.ref l) (fun _ => (· = l)) feas (UserAt l) free where
  toOracleAt := user_at l
  has h := user_has h _
  assess {st o lx x} h hx _ := by
    have hc : call (mach A (userExt gv dec feas upd optim optimQ)) (fuel + 1) (.meth (.ref l) "assess_feas") [.ref lx] st = userFeas feas x st :=
      (call_user h.2.1).trans (withVec_apply hx)
    rw [hc, userFeas, h.2.2]
    rcases feas o x with ⟨o1, f | _ | c⟩ <;> dsimp only
    · exact ⟨_, rfl, h.setWorld⟩
    · exact ⟨_, rfl, h.setWorld⟩
    · exact ⟨_, _, rfl, h.newCut c⟩

/-- And the one for `update`. -/
theorem user_param (hd : ∀ g, dec (gv g) = g) : ParamOracle A (userExt gv dec feas upd optim optimQ) (fuel + 1) (.ref l) (fun _ => (· = l)) feas upd gv (UserAt l) free where
  toFeasOracle := user_feas
  hasUpdate h := user_has h _
  update {st o} g h := by
    refine ⟨.none, st.setWorld (upd o g), ?_, h.setWorld⟩
    rw [call_user h.2.1]
    simp only [mach, userExt, hd, h.2.2]

/-- `assess_optim`. -/
theorem user_optim (hd : ∀ g, dec (gv g) = g) (hn : ∀ g, (gv g).isNone = false) :
    OptimOracle A (userExt gv dec feas upd optim optimQ) (fuel + 1) (.ref l) (fun _ => (· = l)) optim (fun g v => v = gv g) (UserAt l) free where
  toOracleAt := user_at l
  has h := user_has h _
  num h := h ▸ hn _
  assess {st o lx x g vg} h hx _ hg := by
    subst hg
    have hc : call (mach A (userExt gv dec feas upd optim optimQ)) (fuel + 1) (.meth (.ref l) "assess_optim") [.ref lx, gv g] st = userOptim gv optim x g st := by
      rw [call_user h.2.1]
      simp only [mach, userExt, withVec_apply hx, hd]
    rw [hc, userOptim, h.2.2]
    rcases optim o x g with ⟨o1, f | ⟨c, _ | g1⟩⟩ <;> dsimp only
    · exact ⟨_, rfl, h.setWorld⟩
    · exact ⟨_, _, rfl, h.newCut c⟩
    · obtain ⟨h1, h2, h3, h4⟩ := h.newCut (o1 := o1) (free := free) c
      exact ⟨_, _, _, rfl, h1, h2, h3, h4, rfl⟩

/-- `assess_optim_q`, for offsets that `update_q` takes. -/
theorem user_optimQ (hd : ∀ g, dec (gv g) = g) (hn : ∀ g, (gv g).isNone = false) (hb : ∀ o x g b o1 a, optimQ o x g b = (o1, .ok a) → ∀ bs, a.cut.2 ≠ .seq (none :: bs)) :
    OptimQOracle A (userExt gv dec feas upd optim optimQ) (fuel + 1) (.ref l) (fun _ => (· = l)) (fun _ => (· = l)) optimQ (fun g v => v = gv g) (UserAt l) free where
  toOracleAt := user_at l
  keep _ _ _ h := h
  has h := user_has h _
  num h := h ▸ hn _
  assess {st o lx x g vg b} h hx _ hg := by
    subst hg
    have hc : call (mach A (userExt gv dec feas upd optim optimQ)) (fuel + 1) (.meth (.ref l) "assess_optim_q") [.ref lx, gv g, .bool b] st = userOptimQ gv optimQ x g b st := by
      rw [call_user h.2.1]
      simp only [mach, userExt, withVec_apply hx, hd]
    rw [hc, userOptimQ, h.2.2]
    rcases hr : optimQ o x g b with ⟨o1, f | a⟩ <;> dsimp only
    · exact ⟨_, rfl, h.setWorld.1, h.setWorld.2, h.setWorld.2⟩
    · obtain ⟨h1, h2, h3, h4⟩ := h.newCut (o1 := o1) (free := free) a.cut
      set s1 := (Py.newCut a.cut (st.setWorld o1)).2
      have hs1 : s1.next = st.next + 1 := rfl
      have hm : Moves (fun _ : St O => (· = l)) st (s1.alloc (.vec n a.xq)) :=
        ⟨⟨h2.1.next.trans (Nat.le_succ _), fun k hk ho => (heap_alloc_ne (hk.trans_le h2.1.next).ne _).trans (h2.1.same k hk ho)⟩, fun _ h => .inl h⟩
      refine ⟨_, _, _, _, _, rfl, ⟨h1.1.trans (Nat.lt_succ_self _), (heap_alloc_ne h1.1.ne _).trans h1.2.1, h1.2.2⟩, hm, hm, h3.alloc _, h4, hb _ _ _ _ _ _ hr, fun _ => rfl, ?_⟩
      cases a.gamma1 with
      | none => rfl
      | some g1 =>
        refine ⟨rfl, st.next + 1, rfl, .inr (Nat.le_succ _), ?_, heap_alloc_self (st := s1) _, ?_⟩
        · exact Nat.lt_succ_self _
        · have := h.1; omega

end Ellalgo.Py
