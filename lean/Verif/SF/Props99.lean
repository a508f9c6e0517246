import Verif.SF.Double
import Mathlib.Analysis.Convex.SpecificFunctions.Basic
import Mathlib.Analysis.Complex.ExponentialBounds

/-!
# C99: the mass on a Sims-Flanagan leg in doubles
-/

namespace Kep3.SF
open Kep3 Fl Real

/-! ## The exact update of the mass does not amplify errors -/

/-- `m exp(-K/m)` is 1-Lipschitz. -/
theorem lip_fwd {K m m' : ℝ} (hK : 0 ≤ K) (hm : 0 < m) (hm' : 0 < m') : |m * exp (-(K / m)) - m' * exp (-(K / m'))| ≤ |m - m'| := by
  wlog h : m ≤ m' generalizing m m'
  · have := this hm' hm (le_of_not_ge h)
    rwa [abs_sub_comm, abs_sub_comm m m']
  have hl : m / m' ≤ 1 := by rw [div_le_one hm']; exact h
  have c := convexOn_exp.2 (Set.mem_univ (0 : ℝ)) (Set.mem_univ (-(K / m))) (by linarith : 0 ≤ 1 - m / m') (by positivity : 0 ≤ m / m') (by ring)
  simp only [smul_eq_mul, mul_zero, zero_add, exp_zero, mul_one] at c
  rw [show m / m' * -(K / m) = -(K / m') by field_simp] at c
  have c := mul_le_mul_of_nonneg_left c hm'.le
  rw [show m' * (1 - m / m' + m / m' * exp (-(K / m))) = m' - m + m * exp (-(K / m)) by field_simp] at c
  have k : K / m' ≤ K / m := div_le_div_of_nonneg_left hK hm h
  have e : exp (-(K / m)) ≤ exp (-(K / m')) := exp_le_exp.2 (by linarith)
  have d : m * exp (-(K / m)) ≤ m' * exp (-(K / m')) := mul_le_mul h e (exp_pos _).le hm'.le
  rw [abs_of_nonpos (by linarith), abs_of_nonpos (by linarith)]
  linarith

/-- `m exp(K/m)` is 1-Lipschitz where `K ≤ m`. -/
theorem lip_bck {K m m' : ℝ} (hK : 0 ≤ K) (hm : 0 < m) (hm' : 0 < m') (h1 : K ≤ m) (h2 : K ≤ m') : |m * exp (K / m) - m' * exp (K / m')| ≤ |m - m'| := by
  wlog h : m ≤ m' generalizing m m'
  · have := this hm' hm h2 h1 (le_of_not_ge h)
    rwa [abs_sub_comm, abs_sub_comm m m']
  have hl : m / m' ≤ 1 := by rw [div_le_one hm']; exact h
  have c := convexOn_exp.2 (Set.mem_univ (0 : ℝ)) (Set.mem_univ (K / m)) (by linarith : 0 ≤ 1 - m / m') (by positivity : 0 ≤ m / m') (by ring)
  simp only [smul_eq_mul, mul_zero, zero_add, exp_zero, mul_one] at c
  rw [show m / m' * (K / m) = K / m' by field_simp] at c
  have c := mul_le_mul_of_nonneg_left c hm'.le
  rw [show m' * (1 - m / m' + m / m' * exp (K / m)) = m' - m + m * exp (K / m) by field_simp] at c
  have hx : K / m ≤ 1 := by rw [div_le_one hm]; exact h1
  have hd : K / m - K / m' ≤ 1 - m / m' := by
    rw [show K / m - K / m' = K / m * (1 - m / m') by field_simp]
    exact mul_le_of_le_one_left (by linarith) hx
  have e := add_one_le_exp (-(K / m - K / m'))
  have e2 : m / m' * exp (K / m) ≤ exp (K / m') := by
    calc m / m' * exp (K / m) ≤ exp (-(K / m - K / m')) * exp (K / m) := mul_le_mul_of_nonneg_right (by linarith) (exp_pos _).le
      _ = exp (K / m') := by rw [← exp_add]; ring_nf
  have d : m * exp (K / m) ≤ m' * exp (K / m') := by
    have := mul_le_mul_of_nonneg_left e2 hm'.le
    rwa [← mul_assoc, mul_div_cancel₀ _ hm'.ne'] at this
  rw [abs_of_nonpos (by linarith), abs_of_nonpos (by linarith)]
  linarith

/-! ## One impulse -/

theorem abs_rn (x : ℝ) : |rn x| = rn |x| := by
  rcases le_total 0 x with h | h
  · rw [abs_of_nonneg h, abs_of_nonneg (rn_nonneg h)]
  · rw [abs_of_nonpos h, rn_neg, abs_of_nonpos]
    have := rn_nonneg (neg_nonneg.2 h)
    rw [rn_neg] at this
    linarith

theorem comp_near {p q t : ℝ} (h : Near 3.05 p q) : Near 9.16 (p * |t| * (p * |t|)) (rn (rn (q * t) * rn (q * t))) := by
  have h1 := ((h.mul (Near.exact (abs_nonneg t)) (by norm_num)).rn (by norm_num)).mono (k := 4.07) (by norm_num)
  have h2 := ((h1.mul h1 (by norm_num)).rn (by norm_num)).mono (k := 9.16) (by norm_num)
  have hq := h.nonneg
  have e : rn (q * |t|) = |rn (q * t)| := by rw [abs_rn, abs_mul, abs_of_nonneg hq]
  rwa [e, abs_mul_abs_self] at h2

/-- The computed impulse over the computed effective velocity. -/
theorem impulse_near {A : ExpLib} (hA : A.Double) {c c' v v' m : ℝ} (hc : Near 2.03 c c') (hv : Near 2.03 v v') (hv0 : 0 < v) (hm : 0 < m) (w : V3 ℝ) :
    Near 15.25 (c * V3.norm w / v / m) (rn (A.norm (A.impulse c' m w) / v')) := by
  have hq : Near 3.05 (c / m) (rn (c' / m)) := by
    have := ((hc.mul (Near.exact (by positivity : (0 : ℝ) ≤ 1 / m)) (by norm_num)).rn (by norm_num)).mono (k := 3.05) (by norm_num)
    rwa [mul_one_div, mul_one_div] at this
  have s1 := (((comp_near (t := w.x) hq).add (comp_near (t := w.y) hq)).rn (by norm_num)).mono (k := 10.17) (by norm_num)
  have s2 := ((s1.add ((comp_near (t := w.z) hq).mono (k := 10.17) (by norm_num))).rn (by norm_num)).mono (k := 11.18) (by norm_num)
  have s3 := (s2.sqrt.rn (by norm_num)).mono (k := 12.19) (by norm_num)
  have s4 := ((s3.mul (hv.inv hv0 (by norm_num)) (by norm_num)).rn (by norm_num)).mono (k := 15.25) (by norm_num)
  have hp := hq.1
  have e : √(c / m * |w.x| * (c / m * |w.x|) + c / m * |w.y| * (c / m * |w.y|) + c / m * |w.z| * (c / m * |w.z|)) = c / m * V3.norm w := by
    rw [show c / m * |w.x| * (c / m * |w.x|) + c / m * |w.y| * (c / m * |w.y|) + c / m * |w.z| * (c / m * |w.z|) =
      (c / m) ^ 2 * V3.dot w w by
        have := abs_mul_abs_self w.x; have := abs_mul_abs_self w.y; have := abs_mul_abs_self w.z
        unfold V3.dot
        linear_combination (c / m) ^ 2 * (abs_mul_abs_self w.x + abs_mul_abs_self w.y + abs_mul_abs_self w.z)]
    rw [sqrt_mul (sq_nonneg _), sqrt_sq hp]
    rfl
  rw [e, mul_one_div, mul_one_div] at s4
  rw [show c * V3.norm w / v / m = c / m * V3.norm w / v by field_simp]
  unfold ExpLib.norm ExpLib.impulse
  rw [hA.rd]
  exact s4

theorem mul_exp_neg_le (x : ℝ) : x * exp (-x) ≤ 0.368 := by
  have h := add_one_le_exp (x - 1)
  have h1 : exp (-1) ≤ 0.368 := by
    rw [exp_neg, inv_le_comm₀ (exp_pos _) (by norm_num)]
    have := exp_one_gt_d9
    linarith
  calc x * exp (-x) ≤ exp (x - 1) * exp (-x) := mul_le_mul_of_nonneg_right (by linarith) (exp_pos _).le
    _ = exp (-1) := by rw [← exp_add]; ring_nf
    _ ≤ _ := h1

/-- Numbers close to `x`: the exponentials of their opposites. -/
theorem exp_neg_near {x y : ℝ} (h : Near 15.25 x y) : |exp (-y) - exp (-x)| ≤ 5.7 * u := by
  obtain ⟨hx, -, -, h⟩ := h
  have hu := u_pos
  have hu' := u_small
  have hb : 15.25 * u * x ≤ 0.001 * x := mul_le_mul_of_nonneg_right (by linarith) hx
  have hy := abs_le.1 h
  -- the smaller of the two is at least 0.999 x
  have main : ∀ a b : ℝ, 0.999 * x ≤ a → a ≤ b → b - a ≤ 15.25 * u * x → |exp (-a) - exp (-b)| ≤ 5.7 * u := by
    intro a b ha hab hd
    have e : exp (-b) ≤ exp (-a) := exp_le_exp.2 (by linarith)
    rw [abs_of_nonneg (by linarith)]
    have e1 := add_one_le_exp (-(b - a))
    have e2 : exp (-b) = exp (-a) * exp (-(b - a)) := by rw [← exp_add]; ring_nf
    have e3 : exp (-a) ≤ exp (-(0.999 * x)) := exp_le_exp.2 (by linarith)
    have e4 := mul_exp_neg_le (0.999 * x)
    have p := exp_pos (-a)
    have hd0 : 0 ≤ b - a := by linarith
    calc exp (-a) - exp (-b) ≤ exp (-a) * (b - a) := by rw [e2]; nlinarith
      _ ≤ exp (-(0.999 * x)) * (15.25 * u * x) := mul_le_mul e3 hd hd0 (exp_pos _).le
      _ = 15.25 / 0.999 * u * (0.999 * x * exp (-(0.999 * x))) := by ring
      _ ≤ 15.25 / 0.999 * u * 0.368 := mul_le_mul_of_nonneg_left e4 (by positivity)
      _ ≤ 5.7 * u := by nlinarith
  rcases le_total x y with g | g
  · rw [abs_sub_comm]; exact main x y (by linarith) g (by linarith)
  · exact main y x (by linarith) g (by linarith)

/-- The same for the exponentials themselves, for small numbers. -/
theorem exp_near {x y : ℝ} (h : Near 15.25 x y) (h1 : x ≤ 1) : |exp y - exp x| ≤ 15.3 * u * exp x := by
  obtain ⟨hx, -, -, h⟩ := h
  have hu := u_pos
  have hu' := u_small
  have hb : 15.25 * u * x ≤ 15.25 * u := mul_le_of_le_one_right (by positivity) h1
  have hd : |y - x| ≤ 15.25 * u := h.trans hb
  have e : exp y - exp x = exp x * (exp (y - x) - 1) := by rw [mul_sub, ← exp_add]; ring_nf
  have := abs_exp_sub_one_le (x := y - x) (by linarith)
  have q := exp_pos x
  have q1 : |exp (y - x) - 1| ≤ 15.3 * u := by
    have b := norm_exp_sub_one_sub_id_le (x := y - x) (by rw [norm_eq_abs]; linarith)
    rw [norm_eq_abs, norm_eq_abs] at b
    have s : |y - x| ^ 2 ≤ 0.01 * u := by nlinarith [abs_nonneg (y - x)]
    calc |exp (y - x) - 1| = |(exp (y - x) - 1 - (y - x)) + (y - x)| := by ring_nf
      _ ≤ _ := abs_add_le _ _
      _ ≤ _ := by linarith
  rw [e, abs_mul, abs_of_pos q]
  nlinarith

/-- The computed mass after an impulse, forwards. -/
theorem fwd_step {A : ExpLib} (hA : A.Double) {c c' v v' m : ℝ} (hc : Near 2.03 c c') (hv : Near 2.03 v v') (hv0 : 0 < v) (hm : 0 < m) (w : V3 ℝ) (o : Option (RV ℝ)) :
    0 < (A.fwdKick c' v' ⟨o, m⟩ w).m ∧ |(A.fwdKick c' v' ⟨o, m⟩ w).m - m * exp (-(c * V3.norm w / v / m))| ≤ 11 * u * m := by
  have hx := impulse_near hA hc hv hv0 hm w
  obtain ⟨x, ex⟩ : ∃ x, x = c * V3.norm w / v / m := ⟨_, rfl⟩
  obtain ⟨y, ey⟩ : ∃ y, y = rn (A.norm (A.impulse c' m w) / v') := ⟨_, rfl⟩
  have em : (A.fwdKick c' v' ⟨o, m⟩ w).m = rn (m * A.exp (-y)) := by
    show A.rd (m * A.exp (A.rd (-(A.norm (A.impulse c' m w)) / v'))) = _
    rw [ey, hA.rd, neg_div, rn_neg]
  rw [em, ← ex]
  rw [← ex, ← ey] at hx
  have h1 := exp_neg_near hx
  have h2 := hA.exp (-y)
  have hu := u_pos
  have hu' := u_small
  have p1 := exp_pos (-y)
  have hy0 := hx.nonneg
  have p2 : exp (-y) ≤ 1 := by rw [← exp_zero]; exact exp_le_exp.2 (by linarith)
  have hE := abs_le.1 h2
  have E0 : 0 < A.exp (-y) := by nlinarith
  have E1 : A.exp (-y) ≤ 1 + 4 * u := by nlinarith
  have r := rn_err' (m * A.exp (-y))
  rw [abs_of_pos (mul_pos hm E0)] at r
  constructor
  · have := (abs_le.1 r).1
    have := mul_pos hm E0
    nlinarith
  have t : |A.exp (-y) - exp (-x)| ≤ 9.7 * u := by
    calc |A.exp (-y) - exp (-x)| = |(A.exp (-y) - exp (-y)) + (exp (-y) - exp (-x))| := by ring_nf
      _ ≤ _ := abs_add_le _ _
      _ ≤ 4 * u * 1 + 5.7 * u := add_le_add (h2.trans (mul_le_mul_of_nonneg_left p2 (by positivity))) h1
      _ = _ := by ring
  calc |rn (m * A.exp (-y)) - m * exp (-x)| = |(rn (m * A.exp (-y)) - m * A.exp (-y)) + m * (A.exp (-y) - exp (-x))| := by ring_nf
    _ ≤ |rn (m * A.exp (-y)) - m * A.exp (-y)| + |m * (A.exp (-y) - exp (-x))| := abs_add_le _ _
    _ ≤ u * (m * (1 + 4 * u)) + m * (9.7 * u) := by
        rw [abs_mul, abs_of_pos hm]
        exact add_le_add (r.trans (mul_le_mul_of_nonneg_left (mul_le_mul_of_nonneg_left E1 hm.le) hu.le)) (mul_le_mul_of_nonneg_left t hm.le)
    _ ≤ _ := by nlinarith [mul_pos hu hm]

/-- The computed mass after an impulse, backwards. -/
theorem bck_step {A : ExpLib} (hA : A.Double) {c c' v v' m : ℝ} (hc : Near 2.03 c c') (hv : Near 2.03 v v') (hv0 : 0 < v) (hm : 0 < m) (w : V3 ℝ) (o : Option (RV ℝ))
    (h1 : c * V3.norm w / v ≤ m) :
    |(A.bckKick c' v' ⟨o, m⟩ w).m - m * exp (c * V3.norm w / v / m)| ≤ 21 * u * (m * exp (c * V3.norm w / v / m)) := by
  have hx := impulse_near hA hc hv hv0 hm w
  have hx1 : c * V3.norm w / v / m ≤ 1 := by rw [div_le_one hm]; exact h1
  obtain ⟨x, ex⟩ : ∃ x, x = c * V3.norm w / v / m := ⟨_, rfl⟩
  obtain ⟨y, ey⟩ : ∃ y, y = rn (A.norm (A.impulse c' m w) / v') := ⟨_, rfl⟩
  have em : (A.bckKick c' v' ⟨o, m⟩ w).m = rn (m * A.exp y) := by
    show A.rd (m * A.exp (A.rd (A.norm (A.impulse c' m w) / v'))) = _
    rw [ey, hA.rd]
  rw [em, ← ex]
  rw [← ex] at hx1
  rw [← ex, ← ey] at hx
  have h1 := exp_near hx hx1
  have h2 := hA.exp y
  have hu := u_pos
  have hu' := u_small
  have p := exp_pos x
  have pu : u * (u * exp x) ≤ 0.001 * (u * exp x) := mul_le_mul_of_nonneg_right (by linarith) (by positivity)
  have hy := (abs_le.1 h1).2
  have h3 : |A.exp y - exp y| ≤ 4.1 * u * exp x := by
    have := mul_le_mul_of_nonneg_left (by linarith : exp y ≤ exp x + 15.3 * u * exp x) (by positivity : 0 ≤ 4 * u)
    have := mul_pos hu p
    linarith
  have t : |A.exp y - exp x| ≤ 19.4 * u * exp x := by
    calc |A.exp y - exp x| = |(A.exp y - exp y) + (exp y - exp x)| := by ring_nf
      _ ≤ _ := abs_add_le _ _
      _ ≤ _ := by linarith
  have a : |A.exp y| ≤ exp x + 19.4 * u * exp x := by
    calc |A.exp y| = |(A.exp y - exp x) + exp x| := by ring_nf
      _ ≤ _ := abs_add_le _ _
      _ ≤ _ := by rw [abs_of_pos p]; linarith
  have r := rn_err' (m * A.exp y)
  rw [abs_mul, abs_of_pos hm] at r
  calc |rn (m * A.exp y) - m * exp x| = |(rn (m * A.exp y) - m * A.exp y) + m * (A.exp y - exp x)| := by ring_nf
    _ ≤ |rn (m * A.exp y) - m * A.exp y| + |m * (A.exp y - exp x)| := abs_add_le _ _
    _ ≤ u * (m * (exp x + 19.4 * u * exp x)) + m * (19.4 * u * exp x) := by
        rw [abs_mul m, abs_of_pos hm]
        exact add_le_add (r.trans (mul_le_mul_of_nonneg_left (mul_le_mul_of_nonneg_left a hm.le) hu.le)) (mul_le_mul_of_nonneg_left t hm.le)
    _ = m * (20.4 * (u * exp x) + 19.4 * (u * (u * exp x))) := by ring
    _ ≤ m * (21 * (u * exp x)) := mul_le_mul_of_nonneg_left (by nlinarith [mul_pos hu p]) hm.le
    _ = _ := by ring

/-! ## The passes -/

/-- Two loops over the same indices whose states stay related. -/
theorem fold_rel {S T : Type} (R : ℕ → S → T → Prop) {f : S → ℕ → Res S} {g : T → ℕ → Res T} {N : ℕ} {L : List ℕ}
    (h : ∀ j < N, ∀ i ∈ L, ∀ s t r, R j s t → f s i = .ok r → ∃ r', g t i = .ok r' ∧ R (j + 1) r r') :
    ∀ j s t r, j + L.length ≤ N → R j s t → L.foldlM f s = .ok r → ∃ r', L.foldlM g t = .ok r' ∧ R (j + L.length) r r' := by
  induction L with
  | nil =>
    intro j s t r _ hR e
    simp only [List.foldlM_nil, Res.pure_eq, Res.ok.injEq] at e ⊢
    subst e
    exact ⟨t, rfl, hR⟩
  | cons i L ih =>
    intro j s t r hN hR e
    simp only [List.length_cons] at hN ⊢
    rw [List.foldlM_cons] at e
    rcases e1 : f s i with s1 | x | _
    · obtain ⟨t1, g1, R1⟩ := h j (by omega) i (by simp) s t s1 hR e1
      rw [e1, Res.ok_bind] at e
      obtain ⟨r', g2, R2⟩ := ih (fun j hj i hi => h j hj i (by simp [hi])) (j + 1) s1 t1 r (by omega) R1 e
      refine ⟨r', ?_, ?_⟩
      · rw [List.foldlM_cons, g1, Res.ok_bind, g2]
      · rwa [show j + (L.length + 1) = j + 1 + L.length by omega]
    · rw [e1, Res.err_bind] at e; exact nomatch e
    · rw [e1, Res.ub_bind] at e; exact nomatch e

theorem norm_scaled {q : ℝ} (hq : 0 ≤ q) (w : V3 ℝ) : √(q * w.x * (q * w.x) + q * w.y * (q * w.y) + q * w.z * (q * w.z)) = q * V3.norm w := by
  rw [show q * w.x * (q * w.x) + q * w.y * (q * w.y) + q * w.z * (q * w.z) = q ^ 2 * V3.dot w w by unfold V3.dot; ring, sqrt_mul (sq_nonneg _), sqrt_sq hq]
  rfl

theorem fwd_mass {c v m : ℝ} (hc : 0 ≤ c) (hm : 0 < m) (w : V3 ℝ) (o : Option (RV ℝ)) : (fwdKick c v ⟨o, m⟩ w).m = m * exp (-(c * V3.norm w / v / m)) := by
  show m * exp (-√(c / m * w.x * (c / m * w.x) + c / m * w.y * (c / m * w.y) + c / m * w.z * (c / m * w.z)) / v) = _
  rw [norm_scaled (by positivity)]
  congr 2
  field_simp

theorem bck_mass {c v m : ℝ} (hc : 0 ≤ c) (hm : 0 < m) (w : V3 ℝ) (o : Option (RV ℝ)) : (bckKick c v ⟨o, m⟩ w).m = m * exp (c * V3.norm w / v / m) := by
  show m * exp (√(c / m * w.x * (c / m * w.x) + c / m * w.y * (c / m * w.y) + c / m * w.z * (c / m * w.z)) / v) = _
  rw [norm_scaled (by positivity)]
  congr 2
  field_simp

/-- The forward pass: the mass is never more than it was, and its error is a multiple of the initial mass. -/
theorem fwd_pass {A : ExpLib} (hA : A.Double) {c c' v v' m0 : ℝ} (hc : Near 2.03 c c') (hv : Near 2.03 v v') (hv0 : 0 < v) (hm0 : 0 < m0)
    (φ φ' : RV ℝ → ℝ → Option (RV ℝ)) (o o' : Option (RV ℝ)) (t : List ℝ) (n : ℕ) (dt dt' : ℝ) (r : Craft)
    (h : fwdPass (fwdMachine φ c v) ⟨o, m0⟩ t n dt = .ok r) :
    ∃ r', fwdPass (A.fwdMachine φ' c' v') ⟨o', m0⟩ t n dt' = .ok r' ∧ 0 < r.m ∧ r.m ≤ m0 ∧ 0 < r'.m ∧ |r'.m - r.m| ≤ ((1 + 11 * u) ^ n - 1) * m0 := by
  have hu := u_pos
  refine Exists.elim (fold_rel (fun j (s s' : Craft) => 0 < s.m ∧ s.m ≤ m0 ∧ 0 < s'.m ∧ |s'.m - s.m| ≤ ((1 + 11 * u) ^ j - 1) * m0) (N := n)
    (L := List.range n)
    (f := fun s i => do
      let u ← triple t (3 * i) (3 * i + 1) (3 * i + 2)
      let s := (fwdMachine φ c v).kick s u
      Res.ok ((fwdMachine φ c v).coast s (if i = n - 1 then dt / 2 else dt)))
    (g := fun s i => do
      let u ← triple t (3 * i) (3 * i + 1) (3 * i + 2)
      let s := (A.fwdMachine φ' c' v').kick s u
      Res.ok ((A.fwdMachine φ' c' v').coast s (if i = n - 1 then dt' / 2 else dt'))) ?_ 0
      (if 0 < n then (fwdMachine φ c v).coast ⟨o, m0⟩ (dt / 2) else ⟨o, m0⟩)
      (if 0 < n then (A.fwdMachine φ' c' v').coast ⟨o', m0⟩ (dt' / 2) else ⟨o', m0⟩) r (by simp) ?_ h) ?_
  · intro j _ i _ s s' r ⟨h1, h2, h3, h4⟩ e
    rcases et : triple t (3 * i) (3 * i + 1) (3 * i + 2) with w | x | _
    · rw [et, Res.ok_bind, Res.ok.injEq] at e
      subst e
      refine ⟨_, rfl, ?_⟩
      rcases s with ⟨o, m⟩
      rcases s' with ⟨o', m'⟩
      dsimp only at h1 h2 h3 h4
      show 0 < (fwdKick c v ⟨o, m⟩ w).m ∧ (fwdKick c v ⟨o, m⟩ w).m ≤ m0 ∧ 0 < (A.fwdKick c' v' ⟨o', m'⟩ w).m ∧
        |(A.fwdKick c' v' ⟨o', m'⟩ w).m - (fwdKick c v ⟨o, m⟩ w).m| ≤ ((1 + 11 * u) ^ (j + 1) - 1) * m0
      obtain ⟨p, q⟩ := fwd_step hA hc hv hv0 h3 w o'
      rw [fwd_mass hc.1 h1]
      have hK : 0 ≤ c * V3.norm w / v := div_nonneg (mul_nonneg hc.1 (V3.norm_nonneg w)) hv0.le
      have l := lip_fwd hK h3 h1
      have le1 : exp (-(c * V3.norm w / v / m)) ≤ 1 := by
        rw [← exp_zero]; exact exp_le_exp.2 (by have := div_nonneg hK h1.le; linarith)
      refine ⟨by positivity, (mul_le_of_le_one_right h1.le le1).trans h2, p, ?_⟩
      have m1 : m' ≤ m0 + ((1 + 11 * u) ^ j - 1) * m0 := by linarith [(abs_le.1 h4).2]
      calc _ = |((A.fwdKick c' v' ⟨o', m'⟩ w).m - m' * exp (-(c * V3.norm w / v / m'))) +
              (m' * exp (-(c * V3.norm w / v / m')) - m * exp (-(c * V3.norm w / v / m)))| := by ring_nf
        _ ≤ _ := abs_add_le _ _
        _ ≤ 11 * u * (m0 + ((1 + 11 * u) ^ j - 1) * m0) + ((1 + 11 * u) ^ j - 1) * m0 :=
            add_le_add (q.trans (mul_le_mul_of_nonneg_left m1 (by positivity))) (l.trans h4)
        _ = _ := by rw [pow_succ]; ring
    · rw [et, Res.err_bind] at e; exact nomatch e
    · rw [et, Res.ub_bind] at e; exact nomatch e
  · split_ifs
    · show 0 < m0 ∧ m0 ≤ m0 ∧ 0 < m0 ∧ |m0 - m0| ≤ _
      simp [hm0]
    · show 0 < m0 ∧ m0 ≤ m0 ∧ 0 < m0 ∧ |m0 - m0| ≤ _
      simp [hm0]
  · rintro r' ⟨e, R⟩
    exact ⟨r', e, by simpa using R⟩

/-- The backward pass: the mass is never less than it was, and its error is a multiple of the resulting mass. -/
theorem bck_pass {A : ExpLib} (hA : A.Double) {c c' v v' m0 : ℝ} (hc : Near 2.03 c c') (hv : Near 2.03 v v') (hv0 : 0 < v) (hm0 : 0 < m0)
    (φ φ' : RV ℝ → ℝ → Option (RV ℝ)) (o o' : Option (RV ℝ)) (t : List ℝ) (n : ℕ) (dt dt' : ℝ) (r : Craft)
    (hn : (1 + 21 * u) ^ n ≤ 3 / 2)
    (hK : ∀ i < n, ∀ w, triple t (t.length - 1 - 3 * i - 2) (t.length - 1 - 3 * i - 1) (t.length - 1 - 3 * i) = .ok w → c * V3.norm w ≤ v * m0 / 2)
    (h : bckPass (bckMachine φ c v) ⟨o, m0⟩ t n dt = .ok r) :
    ∃ r', bckPass (A.bckMachine φ' c' v') ⟨o', m0⟩ t n dt' = .ok r' ∧ m0 ≤ r.m ∧ |r'.m - r.m| ≤ ((1 + 21 * u) ^ n - 1) * r.m := by
  have hu := u_pos
  refine Exists.elim (fold_rel (fun j (s s' : Craft) => m0 ≤ s.m ∧ |s'.m - s.m| ≤ ((1 + 21 * u) ^ j - 1) * s.m) (N := n)
    (L := List.range n)
    (f := fun s i => do
      let u ← (if 3 * i + 3 ≤ t.length then
          triple t (t.length - 1 - 3 * i - 2) (t.length - 1 - 3 * i - 1) (t.length - 1 - 3 * i)
        else .ub)
      let s := (bckMachine φ c v).kick s u
      Res.ok ((bckMachine φ c v).coast s (if i = n - 1 then -dt / 2 else -dt)))
    (g := fun s i => do
      let u ← (if 3 * i + 3 ≤ t.length then
          triple t (t.length - 1 - 3 * i - 2) (t.length - 1 - 3 * i - 1) (t.length - 1 - 3 * i)
        else .ub)
      let s := (A.bckMachine φ' c' v').kick s u
      Res.ok ((A.bckMachine φ' c' v').coast s (if i = n - 1 then -dt' / 2 else -dt'))) ?_ 0
      (if 0 < n then (bckMachine φ c v).coast ⟨o, m0⟩ (-dt / 2) else ⟨o, m0⟩)
      (if 0 < n then (A.bckMachine φ' c' v').coast ⟨o', m0⟩ (-dt' / 2) else ⟨o', m0⟩) r (by simp) ?_ h) ?_
  · intro j hj i hi s s' r ⟨h1, h2⟩ e
    by_cases hlen : 3 * i + 3 ≤ t.length
    · rw [if_pos hlen] at e ⊢
      rcases et : triple t (t.length - 1 - 3 * i - 2) (t.length - 1 - 3 * i - 1) (t.length - 1 - 3 * i) with w | x | _
      · rw [et, Res.ok_bind, Res.ok.injEq] at e
        subst e
        refine ⟨_, rfl, ?_⟩
        rcases s with ⟨o, m⟩
        rcases s' with ⟨o', m'⟩
        dsimp only at h1 h2
        show m0 ≤ (bckKick c v ⟨o, m⟩ w).m ∧
          |(A.bckKick c' v' ⟨o', m'⟩ w).m - (bckKick c v ⟨o, m⟩ w).m| ≤ ((1 + 21 * u) ^ (j + 1) - 1) * (bckKick c v ⟨o, m⟩ w).m
        have hm : 0 < m := by linarith
        have pj : (1 + 21 * u) ^ j ≤ 3 / 2 := (pow_le_pow_right₀ (by linarith) hj.le).trans hn
        have pj1 : 1 ≤ (1 + 21 * u) ^ j := one_le_pow₀ (by linarith)
        have k0 : c * V3.norm w / v ≤ m0 / 2 := by
          rw [div_le_iff₀ hv0]
          have := hK i (List.mem_range.1 hi) w et
          linarith
        have hm' : m / 2 ≤ m' := by
          have := (abs_le.1 h2).1
          nlinarith
        have hK0 : 0 ≤ c * V3.norm w / v := div_nonneg (mul_nonneg hc.1 (V3.norm_nonneg w)) hv0.le
        have q := bck_step hA hc hv hv0 (m := m') (by linarith) w o' (by linarith)
        rw [bck_mass hc.1 hm]
        have l := lip_bck hK0 (m := m') (m' := m) (by linarith) hm (by linarith) (by linarith)
        have ge1 : 1 ≤ exp (c * V3.norm w / v / m) := one_le_exp (div_nonneg hK0 hm.le)
        have ge2 : m ≤ m * exp (c * V3.norm w / v / m) := le_mul_of_one_le_right hm.le ge1
        refine ⟨h1.trans ge2, ?_⟩
        generalize m * exp (c * V3.norm w / v / m) = H at *
        generalize m' * exp (c * V3.norm w / v / m') = H' at *
        have b := (abs_le.1 (l.trans h2)).2
        calc _ = |((A.bckKick c' v' ⟨o', m'⟩ w).m - H') + (H' - H)| := by ring_nf
          _ ≤ _ := abs_add_le _ _
          _ ≤ 21 * u * (H + ((1 + 21 * u) ^ j - 1) * m) + ((1 + 21 * u) ^ j - 1) * m :=
              add_le_add (q.trans (mul_le_mul_of_nonneg_left (by linarith) (by positivity))) (l.trans h2)
          _ = 21 * u * H + (1 + 21 * u) * (((1 + 21 * u) ^ j - 1) * m) := by ring
          _ ≤ 21 * u * H + (1 + 21 * u) * (((1 + 21 * u) ^ j - 1) * H) := by
              have := mul_le_mul_of_nonneg_left (mul_le_mul_of_nonneg_left ge2 (by linarith : 0 ≤ (1 + 21 * u) ^ j - 1)) (by positivity : 0 ≤ 1 + 21 * u)
              linarith
          _ = _ := by rw [pow_succ]; ring
      · rw [et, Res.err_bind] at e; exact nomatch e
      · rw [et, Res.ub_bind] at e; exact nomatch e
    · rw [if_neg hlen, Res.ub_bind] at e; exact nomatch e
  · split_ifs
    · show m0 ≤ m0 ∧ |m0 - m0| ≤ _
      simp
    · show m0 ≤ m0 ∧ |m0 - m0| ≤ _
      simp
  · rintro r' ⟨e, R⟩
    exact ⟨r', e, by simpa using R⟩

theorem pow_bound {L : ℝ} (h0 : 0 ≤ L) (hL : L ≤ 21) {n : ℕ} (hn : n ≤ 10 ^ 9) : (1 + L * u) ^ n - 1 ≤ 1.001 * L * n * u := by
  have hu := u_pos
  have hu' := u_small
  have hn' : (n : ℝ) ≤ 10 ^ 9 := by exact_mod_cast hn
  have hz : n * (L * u) ≤ 0.0001 := by
    calc (n : ℝ) * (L * u) ≤ 10 ^ 9 * (21 * (1 / 10 ^ 15)) := by gcongr
      _ ≤ _ := by norm_num
  have hz0 : 0 ≤ n * (L * u) := by positivity
  have e : (1 + L * u) ^ n ≤ exp (n * (L * u)) := by
    rw [exp_nat_mul]
    exact pow_le_pow_left₀ (by positivity) (by linarith [add_one_le_exp (L * u)]) n
  have b := norm_exp_sub_one_sub_id_le (x := n * (L * u)) (by rw [norm_eq_abs, abs_of_nonneg hz0]; linarith)
  rw [norm_eq_abs, norm_eq_abs, abs_of_nonneg hz0] at b
  have := (abs_le.1 b).2
  have s : (n * (L * u)) ^ 2 ≤ 0.001 * (n * (L * u)) := by nlinarith
  linarith

/-! ## The theorems -/

/-- **C99**: the mass component of the mismatch. The propagators are arbitrary and may differ. -/
theorem C99_mass {A : ExpLib} (hA : A.Double) (φ φ' : RV ℝ → ℝ → Option (RV ℝ)) {l : Leg ℝ} (hms : 0 < l.ms) (hmf : 0 < l.mf) (hisp : 0 < l.isp)
    (htof : 0 ≤ l.tof) (hT : 0 ≤ l.maxThrust) (hn : l.nsegFwd + l.nsegBck = l.nseg) (hn0 : 0 < l.nseg) (hn9 : l.nseg ≤ 10 ^ 9)
    (hdv : ∀ i < l.nsegBck, ∀ w,
      triple l.throttles (l.throttles.length - 1 - 3 * i - 2) (l.throttles.length - 1 - 3 * i - 1) (l.throttles.length - 1 - 3 * i) = .ok w →
      l.maxThrust * (l.tof / l.nseg) * V3.norm w ≤ l.isp * G0 * l.mf / 2)
    {d : Option (RV ℝ)} {dm : ℝ} (h : computeMismatch φ l = .ok (d, dm)) :
    ∃ d' dm', A.computeMismatch φ' l = .ok (d', dm') ∧ |dm' - dm| ≤ 25 * l.nseg * u * (l.ms + |dm|) := by
  have hu := u_pos
  have hu' := u_small
  have hG : 0 < G0 := by unfold G0; norm_num
  have hv0 : 0 < l.isp * G0 := mul_pos hisp hG
  have hv : Near 2.03 (l.isp * G0) (A.veff l.isp) := by
    unfold ExpLib.veff
    rw [hA.rd]
    exact (((Near.exact hisp.le).mul ((Near.exact hG.le).rn (by norm_num)) (by norm_num)).rn (by norm_num)).mono (by norm_num)
  have hc : Near 2.03 (l.maxThrust * (l.tof / l.nseg)) (A.rd (l.maxThrust * A.rd (l.tof / l.nseg))) := by
    rw [hA.rd]
    exact (((Near.exact hT).mul ((Near.exact (by positivity : 0 ≤ l.tof / l.nseg)).rn (by norm_num)) (by norm_num)).rn (by norm_num)).mono (by norm_num)
  unfold computeMismatch at h
  dsimp only at h
  rcases ef : fwdPass (fwdMachine φ (l.maxThrust * (l.tof / l.nseg)) (l.isp * G0)) ⟨some l.rvs, l.ms⟩ l.throttles l.nsegFwd (l.tof / l.nseg) with f | x | _
  · rcases eb : bckPass (bckMachine φ (l.maxThrust * (l.tof / l.nseg)) (l.isp * G0)) ⟨some l.rvf, l.mf⟩ l.throttles l.nsegBck (l.tof / l.nseg) with b | x | _
    · rw [ef, Res.ok_bind, eb, Res.ok_bind] at h
      have hdm : f.m - b.m = dm := by
        have := (Res.ok.inj h)
        exact congrArg Prod.snd this
      have nF : (l.nsegFwd : ℝ) ≤ l.nseg := by exact_mod_cast (by omega : l.nsegFwd ≤ l.nseg)
      have nB : (l.nsegBck : ℝ) ≤ l.nseg := by exact_mod_cast (by omega : l.nsegBck ≤ l.nseg)
      have nS : (l.nsegFwd : ℝ) + l.nsegBck = l.nseg := by exact_mod_cast hn
      have n1 : (1 : ℝ) ≤ l.nseg := by exact_mod_cast hn0
      have n9 : (l.nseg : ℝ) ≤ 10 ^ 9 := by exact_mod_cast hn9
      have pF := pow_bound (L := 11) (by norm_num) (by norm_num) (by omega : l.nsegFwd ≤ 10 ^ 9)
      have pB := pow_bound (L := 21) (by norm_num) (by norm_num) (by omega : l.nsegBck ≤ 10 ^ 9)
      have hsm : (l.nseg : ℝ) * u ≤ 10 ^ 9 * (1 / 10 ^ 15) := by gcongr
      have hBu : (l.nsegBck : ℝ) * u ≤ l.nseg * u := mul_le_mul_of_nonneg_right nB hu.le
      obtain ⟨f', ef', F1, F2, F3, F4⟩ := fwd_pass hA hc hv hv0 hms φ φ' (some l.rvs) (some l.rvs) l.throttles l.nsegFwd _ (A.rd (l.tof / l.nseg)) f ef
      obtain ⟨b', eb', B1, B2⟩ := bck_pass hA hc hv hv0 hmf φ φ' (some l.rvf) (some l.rvf) l.throttles l.nsegBck _ (A.rd (l.tof / l.nseg)) b (by linarith)
        (fun i hi w hw => hdv i hi w hw) eb
      obtain ⟨d', key⟩ : ∃ d', A.computeMismatch φ' l = .ok (d', A.rd (f'.m - b'.m)) := by
        unfold ExpLib.computeMismatch
        dsimp only
        rw [ef', Res.ok_bind, eb', Res.ok_bind]
        exact ⟨_, rfl⟩
      refine ⟨_, _, key, ?_⟩
      · rw [hA.rd]
        have r := rn_err' (f'.m - b'.m)
        have hb : b.m ≤ l.ms + |dm| := by
          have := neg_abs_le dm
          linarith
        have hb0 : 0 ≤ b.m := by linarith
        have a0 := abs_nonneg dm
        have G1 : |f'.m - f.m| ≤ 1.001 * 11 * l.nsegFwd * u * (l.ms + |dm|) := by
          refine F4.trans ((mul_le_mul_of_nonneg_right pF hms.le).trans ?_)
          exact mul_le_mul_of_nonneg_left (by linarith) (by positivity)
        have G2 : |b'.m - b.m| ≤ 1.001 * 21 * l.nsegBck * u * (l.ms + |dm|) := by
          refine B2.trans ((mul_le_mul_of_nonneg_right pB hb0).trans ?_)
          exact mul_le_mul_of_nonneg_left hb (by positivity)
        obtain ⟨W, hW⟩ : ∃ W, W = u * (l.ms + |dm|) := ⟨_, rfl⟩
        have hW0 : 0 ≤ W := by rw [hW]; positivity
        have e1 : |(f'.m - b'.m) - dm| ≤ 21.1 * (l.nseg * W) := by
          have fW : 0 ≤ (l.nsegFwd : ℝ) * W := by positivity
          have bW : 0 ≤ (l.nsegBck : ℝ) * W := by positivity
          calc |(f'.m - b'.m) - dm| = |(f'.m - f.m) - (b'.m - b.m)| := by rw [← hdm]; ring_nf
            _ ≤ _ := abs_sub _ _
            _ ≤ 1.001 * 11 * l.nsegFwd * u * (l.ms + |dm|) + 1.001 * 21 * l.nsegBck * u * (l.ms + |dm|) := add_le_add G1 G2
            _ = 1.001 * 11 * (l.nsegFwd * W) + 1.001 * 21 * (l.nsegBck * W) := by rw [hW]; ring
            _ ≤ 21.1 * (l.nsegFwd * W) + 21.1 * (l.nsegBck * W) := by linarith
            _ = 21.1 * ((l.nsegFwd + l.nsegBck) * W) := by ring
            _ = _ := by rw [nS]
        have nW : W ≤ l.nseg * W := le_mul_of_one_le_left hW0 n1
        have e2 : |f'.m - b'.m| ≤ |dm| + 21.1 * (l.nseg * W) := by
          calc |f'.m - b'.m| = |((f'.m - b'.m) - dm) + dm| := by ring_nf
            _ ≤ _ := abs_add_le _ _
            _ ≤ _ := by linarith
        have e3 : u * (l.nseg * W) ≤ 0.001 * (l.nseg * W) := mul_le_mul_of_nonneg_right (by linarith) (by positivity)
        have e4 : u * |dm| ≤ W := by rw [hW]; exact mul_le_mul_of_nonneg_left (by linarith) hu.le
        have e5 := mul_le_mul_of_nonneg_left e2 hu.le
        calc |rn (f'.m - b'.m) - dm| = |(rn (f'.m - b'.m) - (f'.m - b'.m)) + ((f'.m - b'.m) - dm)| := by ring_nf
          _ ≤ _ := abs_add_le _ _
          _ ≤ u * |f'.m - b'.m| + 21.1 * (l.nseg * W) := add_le_add r e1
          _ ≤ 25 * (l.nseg * W) := by nlinarith
          _ = _ := by rw [hW]; ring
    · rw [ef, Res.ok_bind, eb, Res.err_bind] at h; exact nomatch h
    · rw [ef, Res.ok_bind, eb, Res.ub_bind] at h; exact nomatch h
  · rw [ef, Res.err_bind] at h; exact nomatch h
  · rw [ef, Res.ub_bind] at h; exact nomatch h

/-- C99, forwards: whatever the throttles, the thrust and the specific impulse, the computed mass stays positive and is within a multiple of the
initial mass of the exact one. -/
theorem C99_forward {A : ExpLib} (hA : A.Double) (φ φ' : RV ℝ → ℝ → Option (RV ℝ)) {l : Leg ℝ} (hms : 0 < l.ms) (hisp : 0 < l.isp)
    (htof : 0 ≤ l.tof) (hT : 0 ≤ l.maxThrust) (hn : l.nsegFwd ≤ 10 ^ 9) {r : Craft}
    (h : fwdPass (fwdMachine φ (l.maxThrust * (l.tof / l.nseg)) (l.isp * G0)) ⟨some l.rvs, l.ms⟩ l.throttles l.nsegFwd (l.tof / l.nseg) = .ok r) :
    ∃ r', fwdPass (A.fwdMachine φ' (A.rd (l.maxThrust * A.rd (l.tof / l.nseg))) (A.veff l.isp)) ⟨some l.rvs, l.ms⟩ l.throttles l.nsegFwd
        (A.rd (l.tof / l.nseg)) = .ok r' ∧
      0 < r'.m ∧ |r'.m - r.m| ≤ 12 * l.nsegFwd * u * l.ms := by
  have hG : 0 < G0 := by unfold G0; norm_num
  have hv : Near 2.03 (l.isp * G0) (A.veff l.isp) := by
    unfold ExpLib.veff
    rw [hA.rd]
    exact (((Near.exact hisp.le).mul ((Near.exact hG.le).rn (by norm_num)) (by norm_num)).rn (by norm_num)).mono (by norm_num)
  have hc : Near 2.03 (l.maxThrust * (l.tof / l.nseg)) (A.rd (l.maxThrust * A.rd (l.tof / l.nseg))) := by
    rw [hA.rd]
    exact (((Near.exact hT).mul ((Near.exact (by positivity : 0 ≤ l.tof / l.nseg)).rn (by norm_num)) (by norm_num)).rn (by norm_num)).mono (by norm_num)
  obtain ⟨r', e, -, -, F3, F4⟩ := fwd_pass hA hc hv (mul_pos hisp hG) hms φ φ' (some l.rvs) (some l.rvs) l.throttles l.nsegFwd _ (A.rd (l.tof / l.nseg)) r h
  refine ⟨r', e, F3, F4.trans (mul_le_mul_of_nonneg_right ((pow_bound (L := 11) (by norm_num) (by norm_num) hn).trans ?_) hms.le)⟩
  have : 0 ≤ l.nsegFwd * u := by have := u_pos; positivity
  linarith

theorem mapM_rel {α β : Type} {P : α → β → Prop} {f : ℕ → Res α} {g : ℕ → Res β} {L : List ℕ}
    (h : ∀ i ∈ L, ∀ a, f i = .ok a → ∃ b, g i = .ok b ∧ P a b) : ∀ r, L.mapM f = .ok r → ∃ r', L.mapM g = .ok r' ∧ List.Forall₂ P r r' := by
  induction L with
  | nil =>
    intro r e
    simp only [List.mapM_nil, Res.pure_eq, Res.ok.injEq] at e
    subst e
    exact ⟨[], rfl, .nil⟩
  | cons i L ih =>
    intro r e
    rw [List.mapM_cons] at e
    rcases e1 : f i with a | x | _
    · rw [e1, Res.ok_bind] at e
      rcases e2 : L.mapM f with q | x | _
      · rw [e2, Res.ok_bind, Res.pure_eq, Res.ok.injEq] at e
        subst e
        obtain ⟨b, g1, p1⟩ := h i (by simp) a e1
        obtain ⟨q', g2, p2⟩ := ih (fun i hi => h i (by simp [hi])) q e2
        exact ⟨b :: q', by rw [List.mapM_cons, g1, Res.ok_bind, g2, Res.ok_bind, Res.pure_eq], .cons p1 p2⟩
      · rw [e2, Res.err_bind] at e; exact nomatch e
      · rw [e2, Res.ub_bind] at e; exact nomatch e
    · rw [e1, Res.err_bind] at e; exact nomatch e
    · rw [e1, Res.ub_bind] at e; exact nomatch e

/-- C99: the throttle constraints `|throttle|^2 - 1`. In particular throttles reported as feasible exceed 1 by a few units of roundoff at most. -/
theorem C99_throttle {A : ExpLib} (hA : A.Double) {l : Leg ℝ} {r : List ℝ} (h : throttleConstraints l = .ok r) :
    ∃ r', A.throttleConstraints l = .ok r' ∧ List.Forall₂ (fun a b => |b - a| ≤ 4.1 * u * (a + 2) ∧ (b ≤ 0 → a ≤ 9 * u)) r r' := by
  refine mapM_rel ?_ r h
  intro i _ a e
  rcases et : triple l.throttles (3 * i) (3 * i + 1) (3 * i + 2) with w | x | _
  · rw [et, Res.ok_bind, Res.ok.injEq] at e
    refine ⟨_, by rw [Res.ok_bind], ?_⟩
    have hu := u_pos
    have hu' := u_small
    have sq : ∀ t : ℝ, Near 1.01 (t * t) (rn (t * t)) := fun t =>
      ((Near.exact (mul_self_nonneg t)).rn (by norm_num)).mono (by norm_num)
    have s1 := (((sq w.x).add (sq w.y)).rn (by norm_num)).mono (k := 2.02) (by norm_num)
    have s2 := ((s1.add ((sq w.z).mono (k := 2.02) (by norm_num))).rn (by norm_num)).mono (k := 3.03) (by norm_num)
    rw [hA.rd]
    generalize rn (rn (rn (w.x * w.x) + rn (w.y * w.y)) + rn (w.z * w.z)) = q at *
    have hp := s2.1
    have h1 := s2.abs_le
    generalize w.x * w.x + w.y * w.y + w.z * w.z = p at *
    subst e
    have r := rn_err' (q - 1)
    have hq : |q - 1| ≤ p + 1 + 3.03 * u * p := by
      have := abs_le.1 h1
      have := mul_nonneg hu.le hp
      rw [abs_le]; constructor <;> linarith
    have up : u * (u * p) ≤ 0.001 * (u * p) := mul_le_mul_of_nonneg_right (by linarith) (by positivity)
    have hup := mul_nonneg hu.le hp
    have main : |rn (q - 1) - (p - 1)| ≤ 4.1 * u * (p - 1 + 2) := by
      have := mul_le_mul_of_nonneg_left hq hu.le
      calc |rn (q - 1) - (p - 1)| = |(rn (q - 1) - (q - 1)) + (q - p)| := by ring_nf
        _ ≤ _ := abs_add_le _ _
        _ ≤ _ := by nlinarith
    refine ⟨main, fun hb => ?_⟩
    have := (abs_le.1 main).1
    have : (p - 1) * (1 - 4.1 * u) ≤ 8.2 * u := by linarith
    by_contra hc
    push Not at hc
    nlinarith
  · rw [et, Res.err_bind] at e; exact nomatch e
  · rw [et, Res.ub_bind] at e; exact nomatch e

/-- A leg: 2000 kg, a third of a newton, two segments of fifty days, one burnt at full throttle in each direction. -/
noncomputable def twoSegments : Leg ℝ where
  rvs := ⟨⟨1, 0, 0⟩, ⟨0, 1, 0⟩⟩
  ms := 2000
  throttles := [1, 0, 0, 0, 1, 0]
  rvf := ⟨⟨0, 1, 0⟩, ⟨-1, 0, 0⟩⟩
  mf := 1900
  tof := 8640000
  maxThrust := 0.3
  isp := 3000
  mu := 1
  cut := 0.5
  nseg := 2
  nsegFwd := 1
  nsegBck := 1

/-- The hypotheses are met. -/
example {A : ExpLib} (hA : A.Double) (φ : RV ℝ → ℝ → Option (RV ℝ)) : ∃ d dm d' dm', computeMismatch φ twoSegments = .ok (d, dm) ∧
    A.computeMismatch φ twoSegments = .ok (d', dm') ∧ |dm' - dm| ≤ 50 * u * (2000 + |dm|) := by
  obtain ⟨d, dm, e⟩ : ∃ d dm, computeMismatch φ twoSegments = .ok (d, dm) := ⟨_, _, rfl⟩
  obtain ⟨d', dm', e', b⟩ := C99_mass hA φ φ (l := twoSegments) (by norm_num [twoSegments]) (by norm_num [twoSegments]) (by norm_num [twoSegments])
    (by norm_num [twoSegments]) (by norm_num [twoSegments]) rfl (by norm_num [twoSegments]) (by norm_num [twoSegments]) (by
      intro i hi w hw
      obtain rfl : i = 0 := by simpa [twoSegments] using hi
      have : w = ⟨0, 1, 0⟩ := (Res.ok.inj hw).symm
      rw [this]
      norm_num [twoSegments, V3.norm, V3.dot, G0]) e
  refine ⟨d, dm, d', dm', e, e', b.trans (le_of_eq ?_)⟩
  norm_num [twoSegments]

end Kep3.SF
