import Verif.Props.RoundedScale

/-!
# C137: a whole run with rescaled cuts is the same run, bit for bit
-/

namespace Ellalgo

open Matrix Spec

variable {n : ℕ}

namespace Arith

/-- A sequence of calls on one object, in the arithmetic `A`: the final object and the outcome of every call. A call that
raises an exception leaves the object as the exception found it, and the caller goes on. -/
noncomputable def updates (A : Arith) : Ell n → List (Method × Cut n) → Ell n × List (Except Fault CutStatus)
  | e, [] => (e, [])
  | e, (m, cut) :: rest =>
    let r := A.updateBy e m cut
    let t := updates A r.1 rest
    (t.1, r.2 :: t.2)

/-- The object without `_tsq`, which no method reads before writing it. -/
def dropTsq (e : Ell n) : Ell n := { e with tsq := 0 }

theorem updateCore_fixed (A : Arith) (e : Ell n) (cut : Cut n) (s : Strategy) :
    (A.updateCore e cut s).1.helper = e.helper ∧ (A.updateCore e cut s).1.noDeferTrick = e.noDeferTrick := by
  unfold Arith.updateCore
  simp only
  split_ifs
  · exact ⟨rfl, rfl⟩
  · exact ⟨rfl, rfl⟩
  all_goals rcases s cut.2 _ with f | ⟨st, _ | p⟩ <;> exact ⟨rfl, rfl⟩

theorem updateBy_fixed (A : Arith) (e : Ell n) (m : Method) (cut : Cut n) :
    (A.updateBy e m cut).1.helper = e.helper ∧ (A.updateBy e m cut).1.noDeferTrick = e.noDeferTrick := by
  cases m <;> exact A.updateCore_fixed e cut _

theorem updateCore_dropTsq (A : Arith) (e : Ell n) (cut : Cut n) (s : Strategy) :
    (A.updateCore (dropTsq e) cut s).2 = (A.updateCore e cut s).2 ∧
    dropTsq (A.updateCore (dropTsq e) cut s).1 = dropTsq (A.updateCore e cut s).1 := by
  unfold dropTsq Arith.updateCore
  by_cases h1 : ∀ i, cut.1 i = 0
  · simp only [if_pos h1]; exact ⟨trivial, trivial⟩
  by_cases h2 : A.dot cut.1 (A.mv e.mq cut.1) = 0
  · simp only [if_neg h1, if_pos h2]; exact ⟨trivial, trivial⟩
  simp only [if_neg h1, if_neg h2]
  rcases s cut.2 (A.mul e.kappa (A.dot cut.1 (A.mv e.mq cut.1))) with f | ⟨st, _ | p⟩ <;> simp

theorem updateBy_dropTsq (A : Arith) (e : Ell n) (m : Method) (cut : Cut n) :
    (A.updateBy (dropTsq e) m cut).2 = (A.updateBy e m cut).2 ∧
    dropTsq (A.updateBy (dropTsq e) m cut).1 = dropTsq (A.updateBy e m cut).1 := by
  cases m <;> exact A.updateCore_dropTsq e cut _

theorem updateBy_congr (A : Arith) {e f : Ell n} (h : dropTsq e = dropTsq f) (m : Method) (cut : Cut n) :
    (A.updateBy e m cut).2 = (A.updateBy f m cut).2 ∧
    dropTsq (A.updateBy e m cut).1 = dropTsq (A.updateBy f m cut).1 := by
  have h1 := A.updateBy_dropTsq e m cut
  have h2 := A.updateBy_dropTsq f m cut
  rw [h] at h1
  exact ⟨h1.1.symm.trans h2.1, h1.2.symm.trans h2.2⟩

theorem dropTsq_ext {e f : Ell n} (h1 : e.xc = f.xc) (h2 : e.mq = f.mq) (h3 : e.kappa = f.kappa) (h4 : e.helper = f.helper)
    (h5 : e.noDeferTrick = f.noDeferTrick) : dropTsq e = dropTsq f := by
  cases e
  cases f
  simp only at h1 h2 h3 h4 h5
  subst h1 h2 h3 h4 h5
  rfl

theorem updates_scale (p : ℕ) : ∀ (calls : List ((Method × Cut n) × ℤ)) (e f : Ell n), dropTsq e = dropTsq f →
    ((Arith.ieee p).updates e (calls.map fun x => (x.1.1, x.1.2.scale (2 ^ x.2)))).2 =
      ((Arith.ieee p).updates f (calls.map Prod.fst)).2 ∧
    dropTsq ((Arith.ieee p).updates e (calls.map fun x => (x.1.1, x.1.2.scale (2 ^ x.2)))).1 =
      dropTsq ((Arith.ieee p).updates f (calls.map Prod.fst)).1
  | [], _, _, h => ⟨rfl, h⟩
  | ((m, cut), k) :: rest, e, f, h => by
    have h1 := C136_bits p k e m cut
    have f1 := (Arith.ieee p).updateBy_fixed e m (cut.scale (2 ^ k))
    have f2 := (Arith.ieee p).updateBy_fixed e m cut
    have h2 := (Arith.ieee p).updateBy_congr h m cut
    have h3 := dropTsq_ext h1.2.1 h1.2.2.1 h1.2.2.2 (f1.1.trans f2.1.symm) (f1.2.trans f2.2.symm)
    have ih := updates_scale p rest _ _ (h3.trans h2.2)
    simp only [List.map_cons, Arith.updates]
    exact ⟨by rw [h1.1, h2.1, ih.1], ih.2⟩

end Arith

/-- **C137.** With `p`-bit numbers: in any sequence of calls on an `Ell` object, multiply each cut by a power of two of its own.
Every call has the same outcome, and at the end the centre, the matrix and the scale are the same, bit for bit. -/
theorem C137_bits (p : ℕ) (e : Ell n) (calls : List ((Method × Cut n) × ℤ)) :
    let r := (Arith.ieee p).updates e (calls.map fun x => (x.1.1, x.1.2.scale (2 ^ x.2)))
    let r' := (Arith.ieee p).updates e (calls.map Prod.fst)
    r.2 = r'.2 ∧ r.1.xc = r'.1.xc ∧ r.1.mq = r'.1.mq ∧ r.1.kappa = r'.1.kappa := by
  have h := Arith.updates_scale p calls e e rfl
  have h1 := congrArg Ell.xc h.2
  have h2 := congrArg Ell.mq h.2
  have h3 := congrArg Ell.kappa h.2
  exact ⟨h.1, h1, h2, h3⟩

/-- Two calls with different factors, 8 and 1/2: the two lists of calls are different. -/
example : let calls : List ((Method × Cut 2) × ℤ) := [((.bias, (![1, 0], .scalar 0)), 3), ((.q, (![0, 1], .scalar 0)), -1)]
    calls.map (fun x => (x.1.1, x.1.2.scale (2 ^ x.2))) ≠ calls.map Prod.fst := by
  intro calls h
  have h1 := congrArg (fun l => (l.head?.map fun x => x.2.1 0)) h
  simp [calls, Cut.scale] at h1
  norm_num at h1

end Ellalgo
