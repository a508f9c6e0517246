import Verif.SF.Props47
import Verif.SF.Props45
import Verif.Mga.Encoding

/-!
# What the direct problems use of the Sims-Flanagan leg

The setters on real numbers (the ones on doubles, with what they reject, are in `Verif/SF/Model.lean`) and small pieces of
Python and numpy.
-/

namespace Kep3.Direct
open Real SF SFSpec

/-- A call that may raise. -/
def lift {α : Type} (r : Res α) : OptionT Res α := OptionT.lift r
/-- A value that may be no number. -/
def num {α : Type} (o : Option α) : OptionT Res α := OptionT.mk (.ok o)

/-- `x[i]` of a Python list or array, `i ≥ 0`. -/
abbrev idx {α : Type} (x : List α) (i : ℕ) : Res α := Mga.idx x i
/-- `x[-1]`. -/
def last {α : Type} (x : List α) : Res α := if x.isEmpty then .err .index else idx x (x.length - 1)
/-- `x[a:b]`, `x[a:-1]` is `slice a (len - 1)`. -/
def slice {α : Type} (a b : ℕ) (x : List α) : List α := (x.take b).drop a

/-- `leg.tof = t`: `set_tof`, src/leg/sims_flanagan.cpp:57-61. -/
noncomputable def setTof (t : ℝ) (l : Leg ℝ) : Res (Leg ℝ) := if t < 0 then .err .domainError else .ok { l with tof := t }

/-- `leg.throttles = ts`: `set_throttles`, src/leg/sims_flanagan.cpp:70-77, with the checks src/leg/sf_checks.cpp:23-33. -/
noncomputable def setThrottles (ts : List ℝ) (l : Leg ℝ) : Res (Leg ℝ) :=
  if ts.length % 3 ≠ 0 then .err .logicError
  else if ts.isEmpty then .err .logicError
  else
    let n := nsegOf ts.length
    let f := ⌊(n : ℝ) * l.cut⌋₊
    .ok { l with throttles := ts, nseg := n, nsegFwd := f, nsegBck := usub n f }

/-- `a[i:j] /= s` in place on an array. -/
noncomputable def scale (i j : ℕ) (s : ℝ) (a : List ℝ) : Option (List ℝ) :=
  a.zipIdx.mapM fun (v, k) => if i ≤ k ∧ k < j then div? v s else some v

/-- `a[-1] *= c` on a list. -/
noncomputable def mulLast (c : ℝ) (a : List ℝ) : List ℝ := a.modify (a.length - 1) (· * c)

/-- The seven mismatches as a list, src/leg/sims_flanagan.cpp:258-260. -/
def list7 (x : RV ℝ) (m : ℝ) : List ℝ := [x.r.x, x.r.y, x.r.z, x.v.x, x.v.y, x.v.z, m]

/-- Row `i` of an array with `rows` rows of `w` columns stored row by row (pykep/expose of the gradients reshapes them so). -/
def rowOf (rows w : ℕ) (a : List ℝ) (i : ℕ) : Res (List ℝ) := if i < rows then .ok ((a.drop (w * i)).take w) else .err .index

/-! ## Lemmas -/

@[simp] theorem run_bind_some {α β : Type} {x : OptionT Res α} {f : α → OptionT Res β} {b : β} :
    (x >>= f).run = .ok (some b) ↔ ∃ a, x.run = .ok (some a) ∧ (f a).run = .ok (some b) := by
  rw [OptionT.run_bind]
  cases h : x.run with
  | ok o => cases o <;> simp [Option.elimM]
  | err e => simp [Option.elimM]
  | ub => simp [Option.elimM]

@[simp] theorem run_lift_some {α : Type} {r : Res α} {a : α} : (lift r).run = .ok (some a) ↔ r = .ok a := by
  unfold lift
  rw [OptionT.run_lift]
  cases r <;> simp

@[simp] theorem run_num_some {α : Type} {o : Option α} {a : α} : (num o).run = .ok (some a) ↔ o = some a := by
  simp [num]

@[simp] theorem run_pure_some {α : Type} {a b : α} : (pure a : OptionT Res α).run = .ok (some b) ↔ a = b := by
  simp

@[simp] theorem idx_ok {α : Type} {l : List α} {i : ℕ} {a : α} : idx l i = .ok a ↔ l[i]? = some a := by
  unfold idx Mga.idx
  cases l[i]? <;> simp

theorem getElem?_getD {l : List ℝ} {i : ℕ} (h : i < l.length) : l[i]? = some (l.getD i 0) := by
  simp [h]

theorem last_eq {l : List ℝ} (h : l ≠ []) : last l = .ok (l.getD (l.length - 1) 0) := by
  have := List.length_pos_iff.2 h
  unfold last
  rw [if_neg (by simpa using h), idx_ok, getElem?_getD (by omega)]

theorem mapM_some {α β : Type} {f : α → Option β} {g : α → β} {l : List α} (h : ∀ a ∈ l, f a = some (g a)) :
    l.mapM f = some (l.map g) := by
  induction l with
  | nil => rfl
  | cons a l ih =>
    rw [List.mapM_cons, h a List.mem_cons_self, ih fun b hb => h b (List.mem_cons_of_mem _ hb)]
    rfl

theorem scale_eq {i j : ℕ} {s : ℝ} (hs : s ≠ 0) (a : List ℝ) :
    scale i j s a = some ((List.range a.length).map fun k => if i ≤ k ∧ k < j then a.getD k 0 / s else a.getD k 0) := by
  unfold scale
  rw [mapM_some (g := fun p => if i ≤ p.2 ∧ p.2 < j then p.1 / s else p.1)]
  · congr 1
    apply List.ext_getElem?
    intro k
    simp only [List.getElem?_map, List.getElem?_zipIdx]
    by_cases hk : k < a.length
    · rw [List.getElem?_range hk, getElem?_getD hk]; simp
    · rw [List.getElem?_eq_none (by omega), List.getElem?_eq_none (by simp; omega)]; rfl
  · rintro ⟨v, k⟩ -
    simp only
    split_ifs
    · exact div?_ok hs
    · rfl

theorem mulLast_append (c : ℝ) (a b : List ℝ) (x : ℝ) : mulLast c (a ++ (b ++ [x])) = a ++ (b ++ [x * c]) := by
  unfold mulLast
  rw [← List.append_assoc, ← List.append_assoc]
  have : (a ++ b ++ [x]).length - 1 = (a ++ b).length := by simp
  rw [this, List.modify_eq_set_getElem?]
  simp [List.set_append]

theorem take_drop_eq {l : List ℝ} {k w : ℕ} (h : k + w ≤ l.length) :
    (l.drop k).take w = (List.range w).map fun c => l.getD (k + c) 0 := by
  apply List.ext_getElem?
  intro c
  by_cases hc : c < w
  · rw [List.getElem?_take_of_lt hc, List.getElem?_drop, List.getElem?_map, List.getElem?_range hc,
      getElem?_getD (by omega)]
    rfl
  · rw [List.getElem?_eq_none (by simp; omega), List.getElem?_eq_none (by simp; omega)]

theorem getD_map_range {f : ℕ → ℝ} {n k : ℕ} (h : k < n) : ((List.range n).map f).getD k 0 = f k := by
  simp [h]

theorem setThrottles_eq {ts : List ℝ} {l : Leg ℝ} {n : ℕ} (h : ts.length = 3 * n) (hn : 0 < n) (hb : 3 * n < 2 ^ 32)
    (hc : 0 ≤ l.cut ∧ l.cut ≤ 1) : setThrottles ts l =
      .ok { l with throttles := ts, nseg := n, nsegFwd := ⌊(n : ℝ) * l.cut⌋₊, nsegBck := n - ⌊(n : ℝ) * l.cut⌋₊ } := by
  have hf : ⌊(n : ℝ) * l.cut⌋₊ ≤ n := by
    have : (n : ℝ) * l.cut ≤ n := by have : (0 : ℝ) ≤ n := by positivity
                                     nlinarith
    exact (Nat.floor_le_floor this).trans (by simp)
  have hN : nsegOf ts.length = n := by
    unfold nsegOf; rw [h, Nat.mod_eq_of_lt hb]; omega
  unfold setThrottles
  rw [if_neg (by omega), if_neg (by
    intro h0
    have : ts = [] := by simpa using h0
    rw [this] at h; simp at h; omega), hN]
  dsimp only
  rw [show usub n ⌊(n : ℝ) * l.cut⌋₊ = n - ⌊(n : ℝ) * l.cut⌋₊ by unfold usub; omega]

/-- What compute_throttle_constraints gives, written with the positions in the flat vector. -/
theorem constraints_eq {l : Leg ℝ} (ht : l.throttles.length = 3 * l.nseg) :
    throttleConstraints l = .ok ((List.range l.nseg).map fun i => l.throttles.getD (3 * i) 0 * l.throttles.getD (3 * i) 0 +
      l.throttles.getD (3 * i + 1) 0 * l.throttles.getD (3 * i + 1) 0 +
      l.throttles.getD (3 * i + 2) 0 * l.throttles.getD (3 * i + 2) 0 - 1) := by
  rw [throttleConstraints_eq l ht]
  congr 1
  have hlen := triples_length l.nseg l.throttles ht
  apply List.ext_getElem?
  intro i
  rw [List.getElem?_map, List.getElem?_map]
  by_cases hi : i < l.nseg
  · have hu : (triples l.throttles)[i]? = some (triples l.throttles)[i] := List.getElem?_eq_getElem (by omega)
    obtain ⟨a, b, c⟩ := getElem_triples l.nseg _ ht i _ hu
    rw [hu, List.getElem?_range hi]
    simp only [Option.map_some, List.getD_eq_getElem?_getD, a, b, c, Option.getD_some, V3.dot]
  · rw [List.getElem?_eq_none (by omega), List.getElem?_eq_none (by simp; omega)]; rfl

theorem tcGrad_eq {l : Leg ℝ} (ht : l.throttles.length = 3 * l.nseg) :
    ∃ g, tcGrad l = .ok g ∧ g.length = l.nseg * (3 * l.nseg) ∧
      ∀ i j, i < l.nseg → j < 3 * l.nseg → g.getD (3 * l.nseg * i + j) 0 = tcEntry l.throttles i j := by
  obtain ⟨g, h1, h2, h3⟩ := fold_set l.throttles l.nseg ht l.nseg le_rfl
  refine ⟨g, h1, by rw [h2]; ring, fun i j hi hj => ?_⟩
  rw [List.getD_eq_getElem?_getD, mul_comm, h3 i j hi hj, if_pos hi]; rfl

/-- `rowOf` inside the array. -/
theorem rowOf_eq {rows w : ℕ} {a : List ℝ} (h : a.length = rows * w) {i : ℕ} (hi : i < rows) :
    rowOf rows w a i = .ok ((List.range w).map fun c => a.getD (w * i + c) 0) := by
  unfold rowOf
  rw [if_pos hi, take_drop_eq]
  rw [h]; nlinarith

theorem slice_map_range {f : ℕ → ℝ} {w a b : ℕ} (hb : b ≤ w) :
    slice a b ((List.range w).map f) = (List.range (b - a)).map fun c => f (a + c) := by
  unfold slice
  apply List.ext_getElem?
  intro k
  rw [List.getElem?_drop]
  by_cases hk : a + k < b
  · rw [List.getElem?_take_of_lt hk, List.getElem?_map, List.getElem?_range (by omega), List.getElem?_map,
      List.getElem?_range (by omega)]; rfl
  · rw [List.getElem?_eq_none (by simp; omega), List.getElem?_eq_none (by simp; omega)]

theorem getD_set {x : List ℝ} {c : ℕ} (hc : c < x.length) (k : ℕ) (t : ℝ) :
    (x.set c t).getD k 0 = if k = c then t else x.getD k 0 := by
  simp only [List.getD_eq_getElem?_getD, List.getElem?_set]
  by_cases h : k = c
  · subst h; simp [hc]
  · rw [if_neg (Ne.symm h), if_neg h]

theorem hasDeriv_set {x : List ℝ} {c : ℕ} (hc : c < x.length) (k : ℕ) :
    HasDerivAt (fun e : ℝ => (x.set c (x.getD c 0 + e)).getD k 0) (if k = c then 1 else 0) 0 := by
  simp only [getD_set hc]
  by_cases h : k = c
  · simp only [if_pos h]
    exact (hasDerivAt_id (0 : ℝ)).const_add _
  · simp only [if_neg h]; exact hasDerivAt_const _ _

theorem set_self {x : List ℝ} {c : ℕ} (hc : c < x.length) : x.set c (x.getD c 0 + 0) = x := by
  simp [hc]

theorem throttles_getD {x : List ℝ} {a m : ℕ} (h : x.length = a + m + 1) (k : ℕ) (hk : k < m) :
    (slice a (x.length - 1) x).getD k 0 = x.getD (a + k) 0 := by
  unfold slice
  rw [List.getD_eq_getElem?_getD, List.getElem?_drop, List.getElem?_take_of_lt (by omega), ← List.getD_eq_getElem?_getD]

theorem slice_length {x : List ℝ} {a m : ℕ} (h : x.length = a + m + 1) : (slice a (x.length - 1) x).length = m := by
  unfold slice; simp; omega

/-- `grad` is the Jacobian of `fit` at `x`, listed in the order of `sp`: as long as `sp`, its entries are the derivatives, and
the components and variables that are not listed do not depend on each other. -/
structure IsJac (fit : List ℝ → OptionT Res (List ℝ)) (grad : List ℝ) (sp : List (ℕ × ℕ)) (m : ℕ) (x : List ℝ) : Prop where
  length : grad.length = sp.length
  entries : ∀ col, col < x.length → ∃ F : ℝ → List ℝ,
    (∀ᶠ e in nhds 0, (fit (x.set col (x.getD col 0 + e))).run = .ok (some (F e))) ∧
    (∀ e, (F e).length = m) ∧
    (∀ (k r : ℕ), sp[k]? = some (r, col) → HasDerivAt (fun e => (F e).getD r 0) (grad.getD k 0) 0) ∧
    ∀ r, r < m → (r, col) ∉ sp → ∀ᶠ e in nhds 0, (F e).getD r 0 = (F 0).getD r 0

end Kep3.Direct
