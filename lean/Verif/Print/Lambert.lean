import Verif.Lambert.Props63

/-!
# C83: what Lambert problems print

`operator<<`, src/lambert_problem.cpp:392-431, as the sequence of the values printed, each with the label before it. Decimal
digits and line breaks are not modelled.
-/

namespace Kep3
open Real V3

namespace Lambert

/-- What is printed for one solution: a header, the labelled numbers, and the two velocities, src/lambert_problem.cpp:408-413,
415-421, 422-428. -/
structure Line where
  header : ℕ × String
  iters : ℕ
  /-- label and value -/
  first : String × Option ℝ
  /-- label and value -/
  second : String × Option ℝ
  v1 : Option (V3 ℝ)
  v2 : Option (V3 ℝ)

/-- `vector::operator[]`: undefined beyond the end. -/
def at? {α : Type} (l : List α) (k : ℕ) : Res α :=
  match l[k]? with
  | some a => .ok a
  | none => .ub

/-- `m_s / 2.0 / (1 - x * x)`, src/lambert_problem.cpp:409, 416, 423; no number if `x` is none or the result is an
infinity. -/
noncomputable def printedA (L : Lambert) (x : Option ℝ) : Option ℝ := do
  let x ← x
  div? (L.s / 2) (1 - x * x)

/-- The lines for the solution stored at index `k`. -/
noncomputable def line (L : Lambert) (header : ℕ × String) (label : String) (k : ℕ) : Res Line := do
  let it ← at? L.iters k
  let x ← at? L.x k
  let v0 ← at? L.v0 k
  let v1 ← at? L.v1 k
  return { header := header, iters := it, first := (label, x), second := ("a", L.printedA x), v1 := v0, v2 := v1 }

/-- The loop over the numbers of revolutions, src/lambert_problem.cpp:414-429. The label of the iteration variable is `a` for
the second solution (line 422). -/
noncomputable def loop (L : Lambert) : List ℕ → Res (List Line)
  | [] => .ok []
  | i :: is => do
    let a ← L.line (i + 1, "left") "x" (1 + 2 * i)
    let b ← L.line (i + 1, "right") "a" (2 + 2 * i)
    let rest ← loop L is
    return a :: b :: rest

/-- All that is printed, src/lambert_problem.cpp:392-431. -/
structure Report where
  mu : ℝ
  r1 : V3 ℝ
  r2 : V3 ℝ
  tof : ℝ
  chord : ℝ
  semiperimeter : ℝ
  lambda : ℝ
  nonDim : ℝ
  Nmax : ℕ
  sols : List Line

/-- `operator<<`, src/lambert_problem.cpp:392-431. -/
noncomputable def report (L : Lambert) : Res Report := do
  let l0 ← L.line (0, "") "x" 0
  let ls ← L.loop (List.range L.Nmax)
  return { mu := L.mu, r1 := L.r0, r2 := L.r1, tof := L.tof, chord := L.c, semiperimeter := L.s, lambda := L.lam,
           nonDim := L.tof * √(2 * L.mu / L.s / L.s / L.s), Nmax := L.Nmax, sols := l0 :: ls }

theorem geom_c {r0 r1 : V3 ℝ} {cw : Bool} {g : Geom} (h : geom r0 r1 cw = .ok g) : g.c = norm (r1 - r0) := by
  unfold geom at h
  simp only at h
  split_ifs at h
  simp only [Res.ok.injEq] at h
  rw [← h]

theorem line_ok {L : Lambert} {k : ℕ} (hi : k < L.iters.length) (hx : k < L.x.length) (h0 : k < L.v0.length)
    (h1 : k < L.v1.length) (hd : ℕ × String) (lb : String) :
    L.line hd lb k = .ok { header := hd, iters := L.iters[k], first := (lb, L.x[k]), second := ("a", L.printedA L.x[k]),
                           v1 := L.v0[k], v2 := L.v1[k] } := by
  unfold line at?
  rw [List.getElem?_eq_getElem hi, List.getElem?_eq_getElem hx, List.getElem?_eq_getElem h0, List.getElem?_eq_getElem h1]
  rfl

theorem loop_ok {L : Lambert} {n : ℕ} (hi : L.iters.length = n) (hx : L.x.length = n) (h0 : L.v0.length = n)
    (h1 : L.v1.length = n) (is : List ℕ) (his : ∀ i ∈ is, 2 + 2 * i < n) :
    ∃ ls, L.loop is = .ok ls ∧ ls.length = 2 * is.length ∧ ∀ (m : ℕ) (hm : m < is.length) (b : Bool),
      ∃ l, ls[2 * m + b.toNat]? = some l ∧
        L.line (is[m] + 1, if b then "right" else "left") (if b then "a" else "x") (1 + b.toNat + 2 * is[m]) = .ok l := by
  induction is with
  | nil => exact ⟨[], rfl, rfl, fun m hm => absurd hm (by simp)⟩
  | cons i is ih =>
    obtain ⟨ls, e, hl, h⟩ := ih (fun j hj => his j (List.mem_cons_of_mem _ hj))
    have hin := his i (List.mem_cons_self ..)
    obtain ⟨a, ea⟩ : ∃ a, L.line (i + 1, "left") "x" (1 + 2 * i) = .ok a :=
      ⟨_, line_ok (by omega) (by omega) (by omega) (by omega) ..⟩
    obtain ⟨b, eb⟩ : ∃ b, L.line (i + 1, "right") "a" (2 + 2 * i) = .ok b :=
      ⟨_, line_ok (by omega) (by omega) (by omega) (by omega) ..⟩
    refine ⟨a :: b :: ls, ?_, ?_, ?_⟩
    · unfold loop
      rw [ea, eb, e]
      rfl
    · simp only [List.length_cons, hl]
      ring
    · intro m hm c
      cases m with
      | zero =>
        cases c
        · exact ⟨a, rfl, ea⟩
        · exact ⟨b, rfl, eb⟩
      | succ m =>
        obtain ⟨l, hl1, hl2⟩ := h m (by simpa using hm) c
        refine ⟨l, ?_, by simpa using hl2⟩
        rw [show 2 * (m + 1) + c.toNat = (2 * m + c.toNat) + 1 + 1 by ring]
        simpa using hl1

/-- The header and the label of the iteration variable printed for index `k`. -/
def headerOf (k : ℕ) : ℕ × String := ((k + 1) / 2, if k = 0 then "" else if k % 2 = 1 then "left" else "right")
def labelOf (k : ℕ) : String := if k = 0 ∨ k % 2 = 1 then "x" else "a"

theorem report_ok {L : Lambert} (hi : L.iters.length = 2 * L.Nmax + 1) (hx : L.x.length = 2 * L.Nmax + 1)
    (h0 : L.v0.length = 2 * L.Nmax + 1) (h1 : L.v1.length = 2 * L.Nmax + 1) :
    ∃ ls, L.report = .ok
        { mu := L.mu, r1 := L.r0, r2 := L.r1, tof := L.tof, chord := L.c, semiperimeter := L.s, lambda := L.lam
          nonDim := L.tof * √(2 * L.mu / L.s / L.s / L.s), Nmax := L.Nmax, sols := ls } ∧ ls.length = 2 * L.Nmax + 1 ∧
      ∀ k < 2 * L.Nmax + 1, ∃ l, ls[k]? = some l ∧ L.line (headerOf k) (labelOf k) k = .ok l := by
  obtain ⟨ls, e, hl, hls⟩ := loop_ok hi hx h0 h1 (List.range L.Nmax) (by
    intro i hi
    have := List.mem_range.1 hi
    omega)
  obtain ⟨a, ea⟩ : ∃ a, L.line (0, "") "x" 0 = .ok a := ⟨_, line_ok (by omega) (by omega) (by omega) (by omega) ..⟩
  refine ⟨a :: ls, ?_, ?_, ?_⟩
  · unfold report
    rw [ea, e]
    rfl
  · simp [hl]
  · intro k hk
    cases k with
    | zero => exact ⟨a, rfl, ea⟩
    | succ k =>
      obtain ⟨l, hl1, hl2⟩ := hls (k / 2) (by rw [List.length_range]; omega) (decide (k % 2 = 1))
      refine ⟨l, ?_, ?_⟩
      · rw [List.getElem?_cons_succ, ← hl1]
        congr 1
        rcases Nat.mod_two_eq_zero_or_one k with h | h
        · rw [h]; simp; omega
        · rw [h]; simp; omega
      · rw [← hl2]
        rw [List.getElem_range]
        rcases Nat.mod_two_eq_zero_or_one k with h | h
        · have a1 : (k + 1) % 2 = 1 := by omega
          have a2 : k / 2 + 1 = (k + 1 + 1) / 2 := by omega
          have a3 : 1 + 2 * (k / 2) = k + 1 := by omega
          simp [headerOf, labelOf, a1, h, a2, a3]
        · have a1 : ¬ (k + 1) % 2 = 1 := by omega
          have a2 : k / 2 + 1 = (k + 1 + 1) / 2 := by omega
          have a3 : 1 + 1 + 2 * (k / 2) = k + 1 := by omega
          simp [headerOf, labelOf, a1, h, a2, a3]

/-- **C83**: what is printed for a solved problem: the data of the problem, and for every index of the solution lists, in
their order, the number of revolutions (and which of the two solutions), the iterations, the iteration variable, the velocities,
and the semi-major axis of the orbit, which is the one of its energy. Missing for the iteration variables: the label
(`C83_lambert_label`). -/
theorem C83_lambert_partial {j : Junk} {r0 r1 : V3 ℝ} {tof mu : ℝ} {cw : Bool} {m : ℕ} {L : Lambert}
    (h : make j r0 r1 tof mu cw m = .ok L) (hz : (cross r0 r1).z ≠ 0) :
    ∃ R, L.report = .ok R ∧ R.mu = mu ∧ R.r1 = r0 ∧ R.r2 = r1 ∧ R.tof = tof ∧ R.chord = norm (r1 - r0) ∧
      R.semiperimeter = semiPerimeter r0 r1 ∧ R.nonDim = Lambert.nonDim r0 r1 tof mu ∧ R.Nmax = L.Nmax ∧
      R.sols.length = 2 * L.Nmax + 1 ∧ ∀ k < 2 * L.Nmax + 1, ∃ l, R.sols[k]? = some l ∧
        l.header = ((k + 1) / 2, if k = 0 then "" else if k % 2 = 1 then "left" else "right") ∧
        L.iters[k]? = some l.iters ∧ L.x[k]? = some l.first.2 ∧ L.v0[k]? = some l.v1 ∧ L.v1[k]? = some l.v2 ∧
        l.second.1 = "a" ∧ ∀ x v0, l.first.2 = some x → x ≠ 1 → x ≠ -1 → l.v1 = some v0 →
          ∃ a, l.second.2 = some a ∧ energy ⟨r0, v0⟩ mu = -(mu / (2 * a)) := by
  obtain ⟨s1, s2, s3, s4, -⟩ := C30_shape h
  obtain ⟨ls, e, hl, hls⟩ := report_ok s4 s3 s1 s2
  obtain ⟨htof, hmu, g, hg, hs, hN, hL⟩ := make_inv h
  have d1 : L.mu = mu := by rw [hL]
  have d2 : L.r0 = r0 := by rw [hL]
  have d3 : L.r1 = r1 := by rw [hL]
  have d4 : L.tof = tof := by rw [hL]
  have d5 : L.s = semiPerimeter r0 r1 := by rw [hL]; exact geom_s hg
  have d6 : L.c = norm (r1 - r0) := by rw [hL]; exact geom_c hg
  refine ⟨_, e, d1, d2, d3, d4, d6, d5, ?_, rfl, hl, ?_⟩
  · simp only [d1, d4, d5, Lambert.nonDim]
    ring
  intro k hk
  obtain ⟨l, hl1, hl2⟩ := hls k hk
  rw [line_ok (by omega) (by omega) (by omega) (by omega)] at hl2
  obtain rfl := Res.ok.inj hl2
  refine ⟨_, hl1, rfl, List.getElem?_eq_getElem _, List.getElem?_eq_getElem _, List.getElem?_eq_getElem _,
    List.getElem?_eq_getElem _, rfl, ?_⟩
  intro x v0 hx n1 n2 hv
  have hx' : L.x[k]? = some (some x) := by rw [List.getElem?_eq_getElem (by omega)]; exact congrArg some hx
  obtain ⟨w, hw, hen⟩ := C31_energy h hz hx'
  have : w = v0 := by
    rw [List.getElem?_eq_getElem (by omega)] at hw
    exact Option.some.inj ((Option.some.inj hw).symm.trans hv)
  rw [this] at hen
  have hne : 1 - x * x ≠ 0 := by
    rw [show 1 - x * x = (1 - x) * (1 + x) by ring]
    exact mul_ne_zero (sub_ne_zero.2 n1.symm) (fun h => n2 (by linarith))
  refine ⟨L.s / 2 / (1 - x * x), ?_, ?_⟩
  · show L.printedA L.x[k] = _
    have hx2 : L.x[k] = some x := hx
    rw [hx2]
    simp [printedA, div?, hne]
  · rw [hen, ← d5]
    have hs' : L.s ≠ 0 := by rw [hL]; exact hs
    field_simp

/-- **C83, negation**: the iteration variable of the second of the two solutions with a number of revolutions is printed with
the label of the semi-major axis, and the others with `x`. -/
theorem C83_lambert_label {j : Junk} {r0 r1 : V3 ℝ} {tof mu : ℝ} {cw : Bool} {m : ℕ} {L : Lambert}
    (h : make j r0 r1 tof mu cw m = .ok L) : ∃ R, L.report = .ok R ∧ ∀ k l, R.sols[k]? = some l →
      L.x[k]? = some l.first.2 ∧ l.first.1 = if k = 0 ∨ k % 2 = 1 then "x" else "a" := by
  obtain ⟨s1, s2, s3, s4, -⟩ := C30_shape h
  obtain ⟨ls, e, hl, hls⟩ := report_ok s4 s3 s1 s2
  refine ⟨_, e, ?_⟩
  intro k l hkl
  have hk : k < 2 * L.Nmax + 1 := by rw [← hl]; exact (List.getElem?_eq_some_iff.1 hkl).1
  obtain ⟨l', hl1, hl2⟩ := hls k hk
  change ls[k]? = some l at hkl
  rw [hkl] at hl1
  obtain rfl := Option.some.inj hl1
  rw [line_ok (by omega) (by omega) (by omega) (by omega)] at hl2
  obtain rfl := Res.ok.inj hl2
  exact ⟨List.getElem?_eq_getElem _, rfl⟩

/-- A problem with two solutions of one revolution at least exists, so that the label does get printed. -/
example : ∃ (r0 r1 : V3 ℝ) (tof : ℝ), ∀ j : Junk, ∃ L R l, make j r0 r1 tof 1 true 1 = .ok L ∧ L.report = .ok R ∧
    R.sols[2]? = some l ∧ l.first.1 = "a" := by
  obtain ⟨r0, r1, tof, -, -, -, h⟩ := C64_spurious
  refine ⟨r0, r1, tof, fun j => ?_⟩
  obtain ⟨L, hL, hN⟩ := h j
  obtain ⟨s1, s2, s3, s4, -⟩ := C30_shape hL
  obtain ⟨ls, e, hl, hls⟩ := report_ok s4 s3 s1 s2
  obtain ⟨l, hl1, hl2⟩ := hls 2 (by omega)
  rw [line_ok (by omega) (by omega) (by omega) (by omega)] at hl2
  obtain rfl := Res.ok.inj hl2
  exact ⟨L, _, _, hL, e, hl1, rfl⟩

end Lambert
end Kep3
