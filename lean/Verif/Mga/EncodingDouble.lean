import Verif.Mga.Encoding
import Verif.Mga.Trajectory
import Verif.FloatErr

/-!
# The time-of-flight encodings of an MGA trajectory in double precision

`pykep/trajopt/_mga.py` with every operation rounded; compare `Mga/Encoding.lean`, which is the same with exact real arithmetic. The genes are numpy scalars, so that the builtin `sum`
adds from the left and rounds every partial sum (the compensated sum of Python 3.12 is for Python floats only). Overflow and underflow are not modelled.
-/

namespace Kep3.Mga
open Real

/-- The arithmetic of numpy. -/
structure Num where
  /-- The rounding of an operation. -/
  rd : ℝ → ℝ
  /-- `numpy.log` on positive numbers. -/
  log : ℝ → ℝ

/-- Arithmetic without rounding. -/
noncomputable def Num.exact : Num := ⟨id, Real.log⟩

namespace Num
variable (A : Num)

/-- The builtin `sum` of numpy scalars. -/
def sum (l : List ℝ) : ℝ := l.foldl (fun s t => A.rd (s + t)) 0

/-- Rounded division. -/
noncomputable def div? (a b : ℝ) : Option ℝ := (Kep3.div? a b).map A.rd

/-- `numpy.log`. -/
noncomputable def log? (x : ℝ) : Option ℝ := if 0 < x then some (A.log x) else none

/-- `alpha2direct`, pykep/trajopt/_mga.py:206-219. -/
noncomputable def alpha2direct (x : List ℝ) : Res (Option (List ℝ)) := do
  let T := (x.drop 2).mapM A.log?
  let x1 ← idx x 1
  let x0 ← idx x 0
  return do
    let T ← T
    let q ← T.mapM fun t => A.div? t (A.sum T)
    return x0 :: q.map fun a => A.rd (a * x1)

/-- The loop of `eta2direct` and of `_decode_tofs`, pykep/trajopt/_mga.py:200-203, 254-257: `n` is the number of legs. -/
noncomputable def etaLoop (dt : ℝ) (x : List ℝ) (n : ℕ) : Res (List ℝ) := do
  let x1 ← idx x 1
  let _ ← idx (List.replicate n (0 : ℝ)) 0
  let T := (List.replicate n 0).set 0 (A.rd (dt * x1))
  (List.range' 1 (n - 1)).foldlM (fun T i => do
    let xi ← idx x (i + 1)
    return T.set i (A.rd (A.rd (dt - A.sum (T.take i)) * xi))) T

/-- `eta2direct`, pykep/trajopt/_mga.py:236-259. `tof` is the data member of the problem. -/
noncomputable def eta2direct (enc : Enc) (tof : ℝ) (x : List ℝ) : Res (List ℝ) :=
  if enc ≠ .eta then .err .value
  else do
    let T ← A.etaLoop tof x (x.length - 1)
    let x0 ← idx x 0
    return x0 :: T

/-- `direct2eta`, pykep/trajopt/_mga.py:261-281. -/
noncomputable def direct2eta (enc : Enc) (tof : ℝ) (x : List ℝ) : Res (Option (List ℝ)) :=
  if enc ≠ .eta then .err .value
  else do
    let x1 ← idx x 1
    return do
      let q ← A.div? x1 tof
      (List.range' 2 (x.length - 2)).foldlM (fun r i => do
        let q ← A.div? (x.getD i 0) (A.rd (tof - A.sum ((x.take i).drop 1)))
        return r.set i q) (x.set 1 q)

/-- `_decode_tofs`, pykep/trajopt/_mga.py:189-204. `tof` is used by the eta encoding only. -/
noncomputable def decodeTofs (enc : Enc) (tof : ℝ) (nLegs : ℕ) (x : List ℝ) : Res (Option (List ℝ)) :=
  match enc with
  | .alpha => do
    let T := (x.drop 2).mapM A.log?
    let x1 ← idx x 1
    return do
      let T ← T
      let q ← T.mapM fun t => A.div? t (A.sum T)
      return q.map fun a => A.rd (a * x1)
  | .direct => return some (x.drop 1)
  | .eta => do
    let T ← A.etaLoop tof x nLegs
    return some T

/-- `_compute_dvs`, pykep/trajopt/_mga.py:283-342, with rounding in the decoding only. -/
noncomputable def computeDvs (j : ℕ → Lambert.Junk) (p : Mga) (x : List ℝ) : OptionT Res Dvs := do
  let T ← OptionT.mk (A.decodeTofs p.enc p.tof p.nLegs x)
  let x0 ← lift (idx x 0)
  fly j p x0 T

end Num

/-! ## Without rounding -/

theorem sum_exact (l : List ℝ) : Num.exact.sum l = l.sum := by
  have : ∀ (l : List ℝ) (s : ℝ), l.foldl (fun s t => Num.exact.rd (s + t)) s = s + l.sum := by
    intro l
    induction l with
    | nil => intro s; simp
    | cons a l ih =>
      intro s
      rw [List.foldl_cons, ih, List.sum_cons]
      simp only [Num.exact, id]
      ring
  rw [Num.sum, this, zero_add]

theorem div_exact (a b : ℝ) : Num.exact.div? a b = div? a b := by
  unfold Num.div?
  rcases div? a b with _ | q <;> rfl

theorem log_exact : Num.exact.log? = Lambert.log? := rfl

/-- Without rounding the functions are those of `Mga/Encoding.lean`. -/
theorem encodings_exact (enc : Enc) (tof : ℝ) (n : ℕ) (x : List ℝ) :
    Num.exact.alpha2direct x = alpha2direct x ∧ Num.exact.eta2direct enc tof x = eta2direct enc tof x ∧
    Num.exact.direct2eta enc tof x = direct2eta enc tof x ∧ Num.exact.decodeTofs enc tof n x = decodeTofs enc tof n x := by
  have hl : ∀ m, Num.exact.etaLoop tof x m = etaLoop tof x m := by
    intro m
    unfold Num.etaLoop etaLoop
    simp only [sum_exact]
    rfl
  refine ⟨?_, ?_, ?_, ?_⟩
  · unfold Num.alpha2direct alpha2direct
    simp only [sum_exact, div_exact, log_exact]
    rfl
  · unfold Num.eta2direct eta2direct
    rw [hl]
  · unfold Num.direct2eta direct2eta
    simp only [sum_exact, div_exact]
    rfl
  · unfold Num.decodeTofs decodeTofs
    simp only [sum_exact, div_exact, log_exact, hl]
    rfl

end Kep3.Mga
