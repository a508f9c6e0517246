import Verif.SF.Model
import Verif.Constants

/-!
# `sims_flanagan`: mismatch and throttle constraints

Real arithmetic (rounding not modelled). The two-body propagator is a parameter `φ`; `none` stands
for the non-finite values `propagate_lagrangian` returns on degenerate states.
The two passes are written once, generically in what "coast" and "impulse" do to a state, so that the
same loop can be run on spacecraft states (the code) and on traces (to count what the loop does).
-/

namespace Kep3.SF

open Kep3

/-- What a pass does to its state. -/
structure Machine (S : Type) where
  /-- `rv = propagate_lagrangian(rv, t, m_mu, false).first` -/
  coast : S → ℝ → S
  /-- the velocity and mass update of one impulse with throttle `u` -/
  kick : S → V3 ℝ → S

/-- Reading three throttle components; an index past the end of `m_throttles` is undefined
behaviour. -/
def triple {F : Type} (t : List F) (i j k : ℕ) : Res (V3 F) :=
  match t[i]?, t[j]?, t[k]? with
  | some x, some y, some z => .ok ⟨x, y, z⟩
  | _, _, _ => .ub

/-- Forward pass, src/leg/sims_flanagan.cpp:208-229. -/
noncomputable def fwdPass {S : Type} (M : Machine S) (s0 : S) (t : List ℝ) (nfwd : ℕ) (dt : ℝ) : Res S :=
  let s1 := if 0 < nfwd then M.coast s0 (dt / 2) else s0
  (List.range nfwd).foldlM (fun s i => do
    let u ← triple t (3 * i) (3 * i + 1) (3 * i + 2)
    let s := M.kick s u
    Res.ok (M.coast s (if i = nfwd - 1 then dt / 2 else dt))) s1

/-- Backward pass, src/leg/sims_flanagan.cpp:235-256. The indices `size - 1 - 3 * i - k` are unsigned:
when they would be negative they wrap to a huge value, hence undefined behaviour. -/
noncomputable def bckPass {S : Type} (M : Machine S) (s0 : S) (t : List ℝ) (nbck : ℕ) (dt : ℝ) : Res S :=
  let s1 := if 0 < nbck then M.coast s0 (-dt / 2) else s0
  (List.range nbck).foldlM (fun s i => do
    let u ← (if 3 * i + 3 ≤ t.length then
        triple t (t.length - 1 - 3 * i - 2) (t.length - 1 - 3 * i - 1) (t.length - 1 - 3 * i)
      else .ub)
    let s := M.kick s u
    Res.ok (M.coast s (if i = nbck - 1 then -dt / 2 else -dt))) s1

/-- The spacecraft during a pass: `rv_fwd`/`rv_bck` (`none` once non-finite) and the mass. -/
@[ext] structure Craft where
  rv : Option (RV ℝ)
  m : ℝ

/-- Impulse of the forward pass, src/leg/sims_flanagan.cpp:216-225. -/
noncomputable def fwdKick (c veff : ℝ) (s : Craft) (u : V3 ℝ) : Craft :=
  let dv : V3 ℝ := ⟨c / s.m * u.x, c / s.m * u.y, c / s.m * u.z⟩
  ⟨s.rv.map fun x => ⟨x.r, ⟨x.v.x + dv.x, x.v.y + dv.y, x.v.z + dv.z⟩⟩,
    s.m * Real.exp (-(Real.sqrt (dv.x * dv.x + dv.y * dv.y + dv.z * dv.z)) / veff)⟩

/-- Impulse of the backward pass, src/leg/sims_flanagan.cpp:243-252. -/
noncomputable def bckKick (c veff : ℝ) (s : Craft) (u : V3 ℝ) : Craft :=
  let dv : V3 ℝ := ⟨c / s.m * u.x, c / s.m * u.y, c / s.m * u.z⟩
  ⟨s.rv.map fun x => ⟨x.r, ⟨x.v.x - dv.x, x.v.y - dv.y, x.v.z - dv.z⟩⟩,
    s.m * Real.exp (Real.sqrt (dv.x * dv.x + dv.y * dv.y + dv.z * dv.z) / veff)⟩

/-- Ballistic arc, src/leg/sims_flanagan.cpp:228 and 255: the mass does not change. -/
def craftCoast (φ : RV ℝ → ℝ → Option (RV ℝ)) (s : Craft) (t : ℝ) : Craft :=
  ⟨s.rv.bind fun x => φ x t, s.m⟩

/-- The forward pass acts like this on the spacecraft. -/
noncomputable def fwdMachine (φ : RV ℝ → ℝ → Option (RV ℝ)) (c veff : ℝ) : Machine Craft :=
  ⟨craftCoast φ, fwdKick c veff⟩

/-- The backward pass acts like this on the spacecraft. -/
noncomputable def bckMachine (φ : RV ℝ → ℝ → Option (RV ℝ)) (c veff : ℝ) : Machine Craft :=
  ⟨craftCoast φ, bckKick c veff⟩

/-- `compute_mismatch_constraints`, src/leg/sims_flanagan.cpp:197-261: difference of the state
(`none`: some component is not finite) and of the mass. `veff`, `dt` and `c` are lines 201-203. -/
noncomputable def computeMismatch (φ : RV ℝ → ℝ → Option (RV ℝ)) (l : Leg ℝ) :
    Res (Option (RV ℝ) × ℝ) := do
  let veff := l.isp * G0
  let dt := l.tof / l.nseg
  let c := l.maxThrust * dt
  let f ← fwdPass (fwdMachine φ c veff) ⟨some l.rvs, l.ms⟩ l.throttles l.nsegFwd dt
  let b ← bckPass (bckMachine φ c veff) ⟨some l.rvf, l.mf⟩ l.throttles l.nsegBck dt
  let diff := f.rv.bind fun x => b.rv.map fun y =>
    (⟨⟨x.r.x - y.r.x, x.r.y - y.r.y, x.r.z - y.r.z⟩, ⟨x.v.x - y.v.x, x.v.y - y.v.y, x.v.z - y.v.z⟩⟩ : RV ℝ)
  return (diff, f.m - b.m)

/-- `compute_throttle_constraints`, src/leg/sims_flanagan.cpp:263-271 (also
src/leg/sims_flanagan_hf.cpp, same loop). -/
noncomputable def throttleConstraints (l : Leg ℝ) : Res (List ℝ) :=
  (List.range l.nseg).mapM fun i => do
    let u ← triple l.throttles (3 * i) (3 * i + 1) (3 * i + 2)
    Res.ok (u.x * u.x + u.y * u.y + u.z * u.z - 1)

/-- `compute_tc_grad`, src/leg/sims_flanagan.cpp:521-530: a zero vector of length nseg*nseg*3 in which
three entries per row are overwritten. -/
noncomputable def tcGrad (l : Leg ℝ) : Res (List ℝ) :=
  (List.range l.nseg).foldlM (fun g i => do
    let u ← triple l.throttles (3 * i) (3 * i + 1) (3 * i + 2)
    Res.ok (((g.set (i * l.nseg * 3 + 3 * i) (2 * u.x)).set (i * l.nseg * 3 + 3 * i + 1) (2 * u.y)).set
      (i * l.nseg * 3 + 3 * i + 2) (2 * u.z)))
    (List.replicate (l.nseg * l.nseg * 3) 0)

end Kep3.SF
