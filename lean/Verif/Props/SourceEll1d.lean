import Verif.Py.Refine.Ell1d
import Verif.Props.Ell1d

/-!
# C111: `ell1d` from its text

Histories of calls on an object that the text of `ell1d.tpy` has made, with the answers that the text gives.
-/

namespace Ellalgo.Py

variable {W : Type} {ext : ℕ → String → List Val → M W Val} {fuel : ℕ} {st : St W}

/-- A pair of numbers as a Python value: a tuple or a list of integers or floats. -/
def IsPair (v : Val) (a b : ℝ) : Prop := ∃ va vb : Val, va.toReal = some a ∧ vb.toReal = some b ∧ (v = .tuple [va, vb] ∨ v = .list [va, vb])

/-- How a call of `update` gives its second argument: not at all, or as a truth value. -/
def IsCentral (vs : List Val) (c : Bool) : Prop := vs = [.bool c] ∨ (vs = [] ∧ c = false)

/-- A history of calls `ell.update(cut)` or `ell.update(cut, central_cut)` none of which answered `NoSoln`, with the centre that `ell.xc()` gave before each of them, the cut, and whether it was central. -/
inductive Ell1dRun (ext : ℕ → String → List Val → M W Val) (fuel o : ℕ) (st : St W) : List (ℝ × (ℝ × ℝ) × Bool) → St W → Prop
  | start : Ell1dRun ext fuel o st [] st
  | step {hist st1 st2 vx x v g b vs c r} : Ell1dRun ext fuel o st hist st1 →
      call (e1mach ext) (fuel + 2) (.meth (.ref o) "xc") [] st1 = .ok vx st1 → vx.toReal = some x →
      IsPair v g b → IsCentral vs c → call (e1mach ext) (fuel + 2) (.meth (.ref o) "update") (v :: vs) st1 = .ok r st2 → r ≠ .glob "CutStatus.NoSoln" →
      Ell1dRun ext fuel o st (hist ++ [(x, (g, b), c)]) st2

/-- What the cuts of a history keep: `grad * (x - xc) + beta ≤ 0`, with `beta` taken as zero in a central cut. -/
def KeptBy (hist : List (ℝ × (ℝ × ℝ) × Bool)) (x : ℝ) : Prop := ∀ c ∈ hist, c.2.1.1 * (x - c.1) + (if c.2.2 then 0 else c.2.1.2) ≤ 0

theorem call_e1_update {o : ℕ} {e : Ell1d} (h : Ell1dAt st o e) {v : Val} {g b : ℝ} {vs : List Val} {c : Bool} (hv : IsPair v g b) (hc : IsCentral vs c) :
    ∃ st', call (e1mach ext) (fuel + 2) (.meth (.ref o) "update") (v :: vs) st = outcome statusVal (e.update (g, b) c).2 st'
      ∧ Ell1dAt st' o (e.update (g, b) c).1 ∧ Frame (fun k => k = o) st st' := by
  obtain ⟨va, vb, h1, h2, h3⟩ := hv
  rcases hc with rfl | ⟨rfl, rfl⟩
  · exact call_e1_update2 h h1 h2 h3 c
  · exact call_e1_update1 h h1 h2 h3

/-- A model of every history of the text. -/
theorem Ell1dRun.model {o : ℕ} {e : Ell1d} (he : Ell1dAt st o e) {hist : List (ℝ × (ℝ × ℝ) × Bool)} {st' : St W} (h : Ell1dRun ext fuel o st hist st') :
    ∃ e', Ell1d.Run e hist e' ∧ Ell1dAt st' o e' ∧ Frame (fun k => k = o) st st' := by
  induction h with
  | start => exact ⟨e, .start, he, .refl _ _⟩
  | @step hist st1 st2 vx x v g b vs c r _ h1 h2 h3 h4 h5 h6 ih =>
    obtain ⟨e1, i1, i2, i3⟩ := ih
    obtain ⟨w, j1, j2⟩ := call_e1_xc (ext := ext) (fuel := fuel) i2
    rw [h1] at j1
    simp only [Res.ok.injEq, and_true] at j1
    subst j1
    rw [h2] at j2
    simp only [Option.some.injEq] at j2
    subst j2
    obtain ⟨s, k1, k2, k3⟩ := call_e1_update (ext := ext) (fuel := fuel) i2 h3 h4
    rw [h5] at k1
    rcases hu : e1.update (g, b) c with ⟨e2, q⟩
    rw [hu] at k1 k2
    cases q with
    | error f => simp [outcome, M.exc] at k1
    | ok s' =>
      simp only [outcome, M.pure, Res.ok.injEq] at k1
      obtain ⟨rfl, rfl⟩ := k1
      refine ⟨e2, .step i1 hu ?_, k2, i3.trans k3⟩
      rintro rfl
      exact h6 rfl

/-- **C111, histories.** `ell = ell1d((l, u))` with `l ≤ u`, run from its text, and then any history of calls of `update` with nonzero gradients, none of which answered `NoSoln`: afterwards
`ell._xc - ell._rd ≤ x ≤ ell._xc + ell._rd` holds exactly for the `x` of `[l, u]` that all cuts keep, `ell.xc()` answers `ell._xc`, and nothing else in memory has changed. The next
call of `update` never raises; when it answers `NoSoln`, no point of `[l, u]` satisfies all cuts. -/
theorem C111_history {v : Val} {l u : ℝ} (hv : IsPair v l u) (hlu : l ≤ u) :
    ∃ o st0, call (e1mach ext) (fuel + 1) (.glob "ell1d") [v] st = .ok (.ref o) st0 ∧ st.next ≤ o ∧
      ∀ hist st1, Ell1dRun ext fuel o st0 hist st1 → (∀ c ∈ hist, c.2.1.1 ≠ 0) →
        (∃ attrs rd xc vx, st1.heap o = some (.inst "ell1d" attrs) ∧ attrs "_rd" = some (.num rd) ∧ attrs "_xc" = some vx ∧ vx.toReal = some xc ∧
          call (e1mach ext) (fuel + 2) (.meth (.ref o) "xc") [] st1 = .ok vx st1 ∧
          ∀ x, (xc - rd ≤ x ∧ x ≤ xc + rd ↔ (l ≤ x ∧ x ≤ u) ∧ KeptBy hist x)) ∧
        Frame (fun _ => False) st st1 ∧
        ∀ w g b vs c, IsPair w g b → IsCentral vs c → g ≠ 0 →
          ∃ s st2, call (e1mach ext) (fuel + 2) (.meth (.ref o) "update") (w :: vs) st1 = .ok (statusVal s) st2 ∧
            (s = .noSoln → ∀ vx xc, call (e1mach ext) (fuel + 2) (.meth (.ref o) "xc") [] st1 = .ok vx st1 → vx.toReal = some xc →
              ∀ x, l ≤ x → x ≤ u → KeptBy hist x → 0 < g * (x - xc) + (if c then 0 else b)) := by
  obtain ⟨vl, vu, h1, h2, h3⟩ := hv
  obtain ⟨st0, k1, k2, k3⟩ := call_ell1d (ext := ext) (fuel := fuel) (st := st) h1 h2 h3
  refine ⟨st.next, st0, k1, le_rfl, fun hist st1 hr hg => ?_⟩
  obtain ⟨e, r1, r2, r3⟩ := hr.model k2
  have h0 : 0 ≤ (Ell1d.init l u).rd := by simp only [Ell1d.init]; linarith
  have hreg := Ell1d.C83_init l u
  obtain ⟨m1, m2, m3⟩ := Ell1d.C83_history _ h0 r1 hg
  have hf : Frame (fun _ => False) st st1 := ⟨k3.next.trans r3.next, r3.world.trans k3.world, fun k hk _ => (r3.same k (hk.trans_le k3.next) hk.ne).trans (k3.same k hk id)⟩
  refine ⟨?_, hf, ?_⟩
  · obtain ⟨-, attrs, vx, vt, a1, a2, a3, a4, a5, a6⟩ := r2
    refine ⟨attrs, e.rd, e.xc, vx, a1, a2, a3, a4, ?_, fun x => ?_⟩
    · rw [call_meth (f := Source.Ell1dTpy.ell1d.xc) a1 rfl rfl]
      simp only [Source.Ell1dTpy.ell1d.xc, py, a1, a3]
    · have := m2 x
      rw [hreg] at this
      exact this
  · intro w g b vs c hw hc hg0
    obtain ⟨s2, u1, u2, -⟩ := call_e1_update (ext := ext) (fuel := fuel) r2 hw hc
    obtain ⟨e', s, w1, -⟩ := Ell1d.C83_update_exact e m1 (g, b) hg0 c
    rw [w1] at u1
    refine ⟨s, s2, u1, ?_⟩
    rintro rfl vx xc j1 j2 x hx1 hx2 hk
    obtain ⟨w', j3, j4⟩ := call_e1_xc (ext := ext) (fuel := fuel) r2
    rw [j1] at j3
    simp only [Res.ok.injEq, and_true] at j3
    subst j3
    rw [j2] at j4
    simp only [Option.some.injEq] at j4
    subst j4
    have := m3 (g, b) c e' hg0 w1 x (by rw [hreg]; exact ⟨hx1, hx2⟩) hk
    exact not_le.mp this

/-- **C111, one call.** `update` on an object with half-width `rd ≥ 0` and centre `xc`, for whatever cut, never raises. With a nonzero gradient: `Success` leaves an interval that is exactly the
part of the old one that the cut keeps, and at most half as long if the cut is central or `beta ≥ 0`; `NoSoln` means the cut keeps nothing of it and `NoEffect` that it keeps
all of it, and both leave the interval as it is. In every case `tsq()` is the squared half-width in the direction of the cut. -/
theorem C111_update {o : ℕ} {e : Ell1d} (h : Ell1dAt st o e) (he : 0 ≤ e.rd) {v : Val} {g b : ℝ} {vs : List Val} {c : Bool} (hv : IsPair v g b) (hc : IsCentral vs c) (hg : g ≠ 0) :
    ∃ s st' e', call (e1mach ext) (fuel + 2) (.meth (.ref o) "update") (v :: vs) st = .ok (statusVal s) st' ∧ Ell1dAt st' o e' ∧ Frame (fun k => k = o) st st' ∧ 0 ≤ e'.rd ∧
      (∃ vt, call (e1mach ext) (fuel + 2) (.meth (.ref o) "tsq") [] st' = .ok vt st' ∧ vt.toReal = some ((e.rd * g) ^ 2)) ∧
      (s = .success → (∀ x, e'.xc - e'.rd ≤ x ∧ x ≤ e'.xc + e'.rd ↔ (e.xc - e.rd ≤ x ∧ x ≤ e.xc + e.rd) ∧ KeptBy [(e.xc, (g, b), c)] x) ∧ (c = true ∨ 0 ≤ b → e'.rd ≤ e.rd / 2)) ∧
      (s = .noSoln → (∀ x, e.xc - e.rd ≤ x → x ≤ e.xc + e.rd → ¬ KeptBy [(e.xc, (g, b), c)] x) ∧ e'.xc = e.xc ∧ e'.rd = e.rd) ∧
      (s = .noEffect → (∀ x, e.xc - e.rd ≤ x → x ≤ e.xc + e.rd → KeptBy [(e.xc, (g, b), c)] x) ∧ e'.xc = e.xc ∧ e'.rd = e.rd) := by
  obtain ⟨s2, u1, u2, u3⟩ := call_e1_update (ext := ext) (fuel := fuel) h hv hc
  obtain ⟨e', s, w1, w2, w3, w4⟩ := Ell1d.C83_update_exact e he (g, b) hg c
  have hk : ∀ x, KeptBy [(e.xc, (g, b), c)] x ↔ x ∈ Ell1d.kept e.xc (g, b) c := fun x => by
    simp only [KeptBy, List.mem_singleton, forall_eq]; exact Iff.rfl
  have hh := fun hb => Ell1d.C83_halves e he (g, b) hg c hb e'
  rw [w1] at u1 u2 hh
  obtain ⟨vt, t1, t2⟩ := call_e1_tsq (ext := ext) (fuel := fuel) u2
  refine ⟨s, s2, e', u1, u2, u3, w2, ⟨vt, t1, by rw [t2, w3]⟩, ?_, ?_, ?_⟩
  · rintro rfl
    rcases w4 with ⟨-, w4⟩ | ⟨w4, -⟩ | ⟨w4, -⟩
    · refine ⟨fun x => ?_, fun hb => (hh hb rfl).1⟩
      rw [hk]
      exact Set.ext_iff.mp w4 x
    · simp at w4
    · simp at w4
  · rintro rfl
    rcases w4 with ⟨w4, -⟩ | ⟨-, w4, w5⟩ | ⟨w4, -⟩
    · simp at w4
    · refine ⟨fun x h1 h2 h3 => ?_, w5⟩
      exact Set.ext_iff.mp w4 x |>.mp ⟨⟨h1, h2⟩, (hk x).mp h3⟩
    · simp at w4
  · rintro rfl
    rcases w4 with ⟨w4, -⟩ | ⟨w4, -⟩ | ⟨-, w4, w5⟩
    · simp at w4
    · simp at w4
    · exact ⟨fun x h1 h2 => (hk x).mpr (w4 ⟨h1, h2⟩), w5⟩

/-- **C111, zero gradients** (the `TODO` of line 89). `update((0, 0))` answers `Success`; although every point satisfies the cut, no point below the old centre is left in the interval. -/
theorem C111_zero_gradient {o : ℕ} {e : Ell1d} (h : Ell1dAt st o e) :
    ∃ st' e', call (e1mach ext) (fuel + 2) (.meth (.ref o) "update") [.tuple [.int 0, .int 0]] st = .ok (.glob "CutStatus.Success") st' ∧ Ell1dAt st' o e' ∧
      ∀ x, e.xc - e.rd ≤ x → x < e.xc → ¬ e'.xc - e'.rd ≤ x := by
  obtain ⟨s2, u1, u2, u3⟩ := call_e1_update (ext := ext) (fuel := fuel) h (v := .tuple [.int 0, .int 0]) (g := 0) (b := 0)
    ⟨_, _, by simp [Val.toReal], by simp [Val.toReal], .inl rfl⟩ (vs := []) (c := false) (.inr ⟨rfl, rfl⟩)
  have h1 : e.update (0, 0) = ({ rd := e.rd / 2, xc := e.xc + e.rd / 2, tsq := |e.rd * 0| ^ 2 }, .ok .success) := by
    unfold Ell1d.update
    simp
  rw [h1] at u1 u2
  refine ⟨s2, _, u1, u2, fun x _ hx => ?_⟩
  simp only
  linarith

/-- The examples of the docstring: `ell1d([0, 1])`, and then `update((1, 0))`. -/
example (st : St Unit) : ∃ o st0, call (e1mach fun _ _ _ => M.stuck) 1 (.glob "ell1d") [.list [.int 0, .int 1]] st = .ok (.ref o) st0 ∧
    ∃ st1, Ell1dRun (fun _ _ _ => M.stuck) 0 o st0 [(1 / 2, (1, 0), false)] st1 := by
  obtain ⟨st0, k1, k2, k3⟩ := call_ell1d (ext := fun _ _ _ => (M.stuck : M Unit Val)) (fuel := 0) (st := st) (vl := .int 0) (vu := .int 1) (l := 0) (u := 1) (by simp [Val.toReal]) (by simp [Val.toReal]) (.inr rfl)
  refine ⟨_, st0, k1, ?_⟩
  have hx : (Ell1d.init 0 1).xc = 1 / 2 := by simp [Ell1d.init]
  have hp : IsPair (.tuple [.int 1, .int 0]) 1 0 := ⟨_, _, by simp [Val.toReal], by simp [Val.toReal], .inl rfl⟩
  obtain ⟨s, u1, -⟩ := call_e1_update (ext := fun _ _ _ => (M.stuck : M Unit Val)) (fuel := 0) k2 hp (vs := []) (c := false) (.inr ⟨rfl, rfl⟩)
  have hu : ((Ell1d.init 0 1).update (1, 0)).2 = .ok .success := by simp [Ell1d.update]
  rw [hu] at u1
  obtain ⟨w, j1, j2⟩ := call_e1_xc (ext := fun _ _ _ => (M.stuck : M Unit Val)) (fuel := 0) k2
  rw [hx] at j2
  exact ⟨s, .step (hist := []) .start j1 j2 hp (.inr ⟨rfl, rfl⟩) u1 (by simp [statusVal])⟩

end Ellalgo.Py
