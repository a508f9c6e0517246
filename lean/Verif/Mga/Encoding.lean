import Verif.Lambert.Model
import Mathlib.Algebra.BigOperators.Group.List.Basic
import Mathlib.Algebra.Order.BigOperators.Group.List

/-!
# The time-of-flight encodings of an MGA trajectory

`pykep/trajopt/_mga.py`, exact real arithmetic. A chromosome is a list of reals. An index outside the list is a Python
`IndexError`. The inner `Option`: `none` if a NaN or an infinity is met in the computation.
-/

namespace Kep3.Mga
open Real

/-- `x[i]` on a sequence. -/
def idx {α : Type} (x : List α) (i : ℕ) : Res α :=
  match x[i]? with
  | some a => .ok a
  | none => .err .index

/-- `alpha2direct`, pykep/trajopt/_mga.py:206-219. -/
noncomputable def alpha2direct (x : List ℝ) : Res (Option (List ℝ)) := do
  let T := (x.drop 2).mapM Lambert.log?
  let x1 ← idx x 1
  let x0 ← idx x 0
  return do
    let T ← T
    let q ← T.mapM fun t => div? t T.sum
    return x0 :: q.map (· * x1)

/-- `direct2alpha`, pykep/trajopt/_mga.py:221-234. -/
noncomputable def direct2alpha (x : List ℝ) : Res (Option (List ℝ)) := do
  let T := (x.drop 1).sum
  let alphas := (x.drop 1).mapM fun t => div? t (-T)
  let x0 ← idx x 0
  return alphas.map fun a => x0 :: T :: a.map exp

/-- The loop of `eta2direct` and of `_decode_tofs`, pykep/trajopt/_mga.py:200-203, 254-257: `n` is the number of legs. -/
noncomputable def etaLoop (dt : ℝ) (x : List ℝ) (n : ℕ) : Res (List ℝ) := do
  let x1 ← idx x 1
  let _ ← idx (List.replicate n (0 : ℝ)) 0
  let T := (List.replicate n 0).set 0 (dt * x1)
  (List.range' 1 (n - 1)).foldlM (fun T i => do
    let xi ← idx x (i + 1)
    return T.set i ((dt - (T.take i).sum) * xi)) T

/-- The encodings, pykep/trajopt/_mga.py:137. -/
inductive Enc
  | alpha | direct | eta
  deriving DecidableEq

/-- `eta2direct`, pykep/trajopt/_mga.py:236-259. `tof` is the data member of the problem. -/
noncomputable def eta2direct (enc : Enc) (tof : ℝ) (x : List ℝ) : Res (List ℝ) :=
  if enc ≠ .eta then .err .value
  else do
    let T ← etaLoop tof x (x.length - 1)
    let x0 ← idx x 0
    return x0 :: T

/-- `direct2eta`, pykep/trajopt/_mga.py:261-281. -/
noncomputable def direct2eta (enc : Enc) (tof : ℝ) (x : List ℝ) : Res (Option (List ℝ)) :=
  if enc ≠ .eta then .err .value
  else do
    let x1 ← idx x 1
    return do
      let q ← div? x1 tof
      (List.range' 2 (x.length - 2)).foldlM (fun r i => do
        let q ← div? (x.getD i 0) (tof - ((x.take i).drop 1).sum)
        return r.set i q) (x.set 1 q)

/-- `_decode_tofs`, pykep/trajopt/_mga.py:189-204. `tof` is used by the eta encoding only. -/
noncomputable def decodeTofs (enc : Enc) (tof : ℝ) (nLegs : ℕ) (x : List ℝ) : Res (Option (List ℝ)) :=
  match enc with
  | .alpha => do
    let T := (x.drop 2).mapM Lambert.log?
    let x1 ← idx x 1
    return do
      let T ← T
      let q ← T.mapM fun t => div? t T.sum
      return q.map (· * x1)
  | .direct => return some (x.drop 1)
  | .eta => do
    let T ← etaLoop tof x nLegs
    return some T

/-! ## Lemmas -/

theorem mapM_log {l : List ℝ} (h : ∀ a ∈ l, 0 < a) : l.mapM Lambert.log? = some (l.map log) := by
  induction l with
  | nil => rfl
  | cons a l ih =>
    rw [List.mapM_cons, ih fun b hb => h b (List.mem_cons_of_mem _ hb)]
    simp [Lambert.log?, h a List.mem_cons_self]

theorem mapM_div {l : List ℝ} {s : ℝ} (h : s ≠ 0) : l.mapM (fun t => div? t s) = some (l.map (· / s)) := by
  induction l with
  | nil => rfl
  | cons a l ih =>
    rw [List.mapM_cons, ih, div?_ok h]
    rfl

theorem sum_map_div (l : List ℝ) (s : ℝ) : (l.map (· / s)).sum = l.sum / s := by
  induction l with
  | nil => simp
  | cons a l ih => simp [ih]; ring

theorem sum_map_mul (l : List ℝ) (s : ℝ) : (l.map (· * s)).sum = l.sum * s := by
  induction l with
  | nil => simp
  | cons a l ih => simp [ih]; ring

theorem sum_neg {l : List ℝ} (h : ∀ a ∈ l, a < 0) (hl : l ≠ []) : l.sum < 0 := by
  induction l with
  | nil => exact absurd rfl hl
  | cons a l ih =>
    have ha := h a List.mem_cons_self
    rw [List.sum_cons]
    by_cases e : l = []
    · simpa [e] using ha
    · have := ih (fun b hb => h b (List.mem_cons_of_mem _ hb)) e
      linarith

theorem sum_pos' {l : List ℝ} (h : ∀ a ∈ l, 0 < a) (hl : l ≠ []) : 0 < l.sum := by
  induction l with
  | nil => exact absurd rfl hl
  | cons a l ih =>
    have ha := h a List.mem_cons_self
    rw [List.sum_cons]
    by_cases e : l = []
    · simpa [e] using ha
    · have := ih (fun b hb => h b (List.mem_cons_of_mem _ hb)) e
      linarith

/-- The value of `alpha2direct` on positive genes. -/
theorem alpha2direct_eq {t0 T : ℝ} {al : List ℝ} (h : ∀ a ∈ al, 0 < a) (hs : al = [] ∨ (al.map log).sum ≠ 0) :
    alpha2direct (t0 :: T :: al) = .ok (some (t0 :: al.map fun a => log a / (al.map log).sum * T)) := by
  unfold alpha2direct
  simp only [List.drop_succ_cons, List.drop_zero, mapM_log h]
  rcases hs with rfl | hs
  · simp [idx]
  · simp [idx, mapM_div hs, Function.comp_def]

theorem direct2alpha_eq {t0 : ℝ} {ts : List ℝ} (hs : ts.sum ≠ 0) :
    direct2alpha (t0 :: ts) = .ok (some (t0 :: ts.sum :: ts.map fun t => exp (t / -ts.sum))) := by
  unfold direct2alpha
  simp only [List.drop_succ_cons, List.drop_zero]
  simp [idx, mapM_div (neg_ne_zero.2 hs), Function.comp_def]

/-! ## C52, alpha -/

/-- **C52**: from direct to alpha and back. -/
theorem C52_direct_alpha {t0 : ℝ} {ts : List ℝ} (hs : ts.sum ≠ 0) :
    ∃ a, direct2alpha (t0 :: ts) = .ok (some a) ∧ alpha2direct a = .ok (some (t0 :: ts)) := by
  refine ⟨_, direct2alpha_eq hs, ?_⟩
  have e : ((ts.map fun t => exp (t / -ts.sum)).map log) = ts.map (· / -ts.sum) := by
    rw [List.map_map]; exact List.map_congr_left fun t _ => by simp
  have e' : ((ts.map fun t => exp (t / -ts.sum)).map log).sum = -1 := by
    rw [e, sum_map_div, div_neg, div_self hs]
  rw [alpha2direct_eq (fun a ha => by obtain ⟨t, -, rfl⟩ := List.mem_map.1 ha; exact exp_pos _)
    (.inr (by rw [e']; norm_num)), e', List.map_map]
  congr 3
  conv_rhs => rw [← List.map_id ts]
  exact List.map_congr_left fun t _ => by simp; field_simp

/-- **C52**: the chromosome made by `direct2alpha` from positive times of flight: the total time and genes strictly
between 0 and 1. -/
theorem C52_direct_alpha_range {t0 : ℝ} {ts : List ℝ} (h : ∀ t ∈ ts, 0 < t) (hl : ts ≠ []) :
    ∃ al, direct2alpha (t0 :: ts) = .ok (some (t0 :: ts.sum :: al)) ∧ al.length = ts.length ∧ ∀ a ∈ al, 0 < a ∧ a < 1 := by
  have hs := sum_pos' h hl
  refine ⟨_, direct2alpha_eq hs.ne', List.length_map _, fun a ha => ?_⟩
  obtain ⟨t, ht, rfl⟩ := List.mem_map.1 ha
  refine ⟨exp_pos _, exp_lt_one_iff.2 ?_⟩
  rw [div_neg, neg_lt_zero]
  exact div_pos (h t ht) hs

/-- **C52**: the times decoded from the alpha encoding are positive and add up to the encoded total. -/
theorem C52_alpha_times {t0 T : ℝ} {al : List ℝ} (h : ∀ a ∈ al, 0 < a ∧ a < 1) (hl : al ≠ []) (hT : 0 < T) :
    ∃ ts, alpha2direct (t0 :: T :: al) = .ok (some (t0 :: ts)) ∧ ts.length = al.length ∧ (∀ t ∈ ts, 0 < t) ∧ ts.sum = T := by
  have hn : ∀ b ∈ al.map log, b < 0 := fun b hb => by
    obtain ⟨a, ha, rfl⟩ := List.mem_map.1 hb
    exact log_neg (h a ha).1 (h a ha).2
  have hs := sum_neg hn (by simpa using hl)
  refine ⟨_, alpha2direct_eq (fun a ha => (h a ha).1) (.inr hs.ne), List.length_map _, fun t ht => ?_, ?_⟩
  · obtain ⟨a, ha, rfl⟩ := List.mem_map.1 ht
    exact mul_pos (div_pos_of_neg_of_neg (hn _ (List.mem_map_of_mem ha)) hs) hT
  · rw [show (al.map fun a => log a / (al.map log).sum * T) = ((al.map log).map (· / (al.map log).sum)).map (· * T) by
      simp [Function.comp_def], sum_map_mul, sum_map_div, div_self hs.ne, one_mul]

/-- **C52**, the other way round: from alpha to direct and back gives the chromosome one started from exactly if the
logarithms of its genes add up to −1. -/
theorem C52_alpha_direct_iff {t0 T : ℝ} {al : List ℝ} (h : ∀ a ∈ al, 0 < a ∧ a < 1) (hl : al ≠ []) (hT : 0 < T) :
    ∃ d b, alpha2direct (t0 :: T :: al) = .ok (some d) ∧ direct2alpha d = .ok (some b) ∧
      alpha2direct b = .ok (some d) ∧ (b = t0 :: T :: al ↔ (al.map log).sum = -1) := by
  obtain ⟨ts, h1, hlen, hp, hs⟩ := C52_alpha_times (t0 := t0) h hl hT
  have hs0 : ts.sum ≠ 0 := by rw [hs]; exact hT.ne'
  obtain ⟨b, h2, h3⟩ := C52_direct_alpha (t0 := t0) hs0
  refine ⟨_, b, h1, h2, h3, ?_⟩
  have hn : (al.map log).sum < 0 := sum_neg (fun b hb => by
    obtain ⟨a, ha, rfl⟩ := List.mem_map.1 hb
    exact log_neg (h a ha).1 (h a ha).2) (by simpa using hl)
  rw [alpha2direct_eq (fun a ha => (h a ha).1) (.inr hn.ne)] at h1
  rw [direct2alpha_eq hs0] at h2
  simp only [Res.ok.injEq, Option.some.injEq, List.cons.injEq, true_and] at h1 h2
  subst h2
  simp only [List.cons.injEq, true_and, hs]
  rw [← h1, List.map_map]
  have e : ((fun t => exp (t / -T)) ∘ fun a => log a / (al.map log).sum * T) = fun a => exp (log a / -(al.map log).sum) := by
    funext a
    simp only [Function.comp]
    congr 1
    rw [div_neg, div_neg, mul_div_assoc, div_self hT.ne', mul_one]
  rw [e]
  constructor
  · intro hm
    have := congrArg (fun l => (l.map log).sum) hm
    simp only [List.map_map] at this
    rw [show (log ∘ fun a => exp (log a / -(al.map log).sum)) = (· / -(al.map log).sum) ∘ log by funext a; simp,
      ← List.map_map, sum_map_div, div_neg, div_self hn.ne] at this
    exact this.symm
  · intro hm
    rw [hm]
    conv_rhs => rw [← List.map_id al]
    exact List.map_congr_left fun a ha => by simp [exp_log (h a ha).1]

/-- **C52 fails** as stated for the alpha encoding: two chromosomes within the bounds of the problem that are decoded to
the same times; so no function can recover the chromosome. -/
theorem C52_alpha_not_injective (t0 T : ℝ) (n : ℕ) (hn : 0 < n) : ∃ a b : List ℝ, a ≠ b ∧ a.length = n ∧ b.length = n ∧
    (∀ g ∈ a, 1e-3 ≤ g ∧ g ≤ 1 - 1e-3) ∧ (∀ g ∈ b, 1e-3 ≤ g ∧ g ≤ 1 - 1e-3) ∧
    ∃ d, alpha2direct (t0 :: T :: a) = .ok (some d) ∧ alpha2direct (t0 :: T :: b) = .ok (some d) := by
  obtain ⟨m, rfl⟩ : ∃ m, n = m + 1 := ⟨n - 1, by omega⟩
  have key : ∀ g : ℝ, 0 < g → g < 1 → alpha2direct (t0 :: T :: List.replicate (m + 1) g) =
      .ok (some (t0 :: List.replicate (m + 1) (1 / (m + 1) * T))) := by
    intro g h0 h1
    have hl : log g ≠ 0 := (log_neg h0 h1).ne
    rw [alpha2direct_eq (fun a ha => by rw [List.eq_of_mem_replicate ha]; exact h0)]
    · simp only [List.map_replicate, List.sum_replicate, nsmul_eq_mul]
      congr 4
      push_cast
      field_simp
    · right
      simp only [List.map_replicate, List.sum_replicate, nsmul_eq_mul]
      exact mul_ne_zero (by positivity) hl
  refine ⟨List.replicate (m + 1) (1 / 2), List.replicate (m + 1) (1 / 4), ?_, by simp, by simp, ?_, ?_,
    _, key _ (by norm_num) (by norm_num), key _ (by norm_num) (by norm_num)⟩
  · intro h
    have := congrArg List.head? h
    norm_num [List.replicate_succ] at this
  all_goals
    intro g hg
    rw [List.eq_of_mem_replicate hg]
    norm_num

example : ∃ ts, alpha2direct [0, 500, 1 / 2, 1 / 3, 1 / 4] = .ok (some (0 :: ts)) ∧ ts.length = 3 ∧ (∀ t ∈ ts, 0 < t) ∧ ts.sum = 500 :=
  C52_alpha_times (al := [1 / 2, 1 / 3, 1 / 4]) (by simp; norm_num) (by simp) (by norm_num)

/-! ## C52, eta -/

/-- The decoded times: each gene is a fraction of the time that is left. -/
noncomputable def etaTimes (rem : ℝ) : List ℝ → List ℝ
  | [] => []
  | e :: es => rem * e :: etaTimes (rem - rem * e) es

@[simp] theorem etaTimes_length (rem : ℝ) (es : List ℝ) : (etaTimes rem es).length = es.length := by
  induction es generalizing rem with
  | nil => rfl
  | cons e es ih => simp [etaTimes, ih]

theorem etaTimes_take (es : List ℝ) (rem : ℝ) (i : ℕ) : (etaTimes rem es).take i = etaTimes rem (es.take i) := by
  induction es generalizing rem i with
  | nil => simp [etaTimes]
  | cons e es ih => cases i with
    | zero => simp [etaTimes]
    | succ i => simp [etaTimes, ih]

theorem etaTimes_append (a b : List ℝ) (rem : ℝ) :
    etaTimes rem (a ++ b) = etaTimes rem a ++ etaTimes (rem - (etaTimes rem a).sum) b := by
  induction a generalizing rem with
  | nil => simp [etaTimes]
  | cons e a ih => simp only [List.cons_append, etaTimes, ih, List.sum_cons, sub_sub]

theorem etaLoop_step {dt x0 : ℝ} {es : List ℝ} (n : ℕ) : ∀ k i, i + k = n → 1 ≤ i → n ≤ es.length →
    (List.range' i k).foldlM (fun T i => do
      let xi ← idx (x0 :: es) (i + 1)
      return T.set i ((dt - (T.take i).sum) * xi)) (etaTimes dt (es.take i) ++ List.replicate (n - i) 0) =
      .ok (etaTimes dt (es.take n)) := by
  intro k
  induction k with
  | zero => intro i hi _ _; simp [show i = n by omega]
  | succ k ih =>
    intro i hi h1 hn
    rw [List.range'_succ, List.foldlM_cons]
    have hlt : i < es.length := by omega
    have e1 : idx (x0 :: es) (i + 1) = .ok es[i] := by simp [idx, hlt]
    have hlen : (etaTimes dt (es.take i)).length = i := by simp; omega
    rw [e1]
    simp only [Res.ok_bind, Res.pure_eq]
    have e2 : (etaTimes dt (es.take i) ++ List.replicate (n - i) 0).take i = etaTimes dt (es.take i) := by
      rw [List.take_append_of_le_length (by omega), List.take_of_length_le (by omega)]
    rw [e2, ← ih (i + 1) (by omega) (by omega) hn]
    congr 1
    rw [show n - i = n - (i + 1) + 1 by omega, List.replicate_succ, List.set_append_right _ _ (by omega), hlen,
      Nat.sub_self, List.set_cons_zero, List.take_succ_eq_append_getElem hlt, etaTimes_append]
    simp [etaTimes]

/-- The loop computes the decoded times. -/
theorem etaLoop_eq {dt x0 : ℝ} {es : List ℝ} {n : ℕ} (h1 : 1 ≤ n) (hn : n ≤ es.length) :
    etaLoop dt (x0 :: es) n = .ok (etaTimes dt (es.take n)) := by
  unfold etaLoop
  obtain ⟨m, rfl⟩ : ∃ m, n = m + 1 := ⟨n - 1, by omega⟩
  obtain ⟨e, es, rfl⟩ : ∃ e es', es = e :: es' := by
    cases es with
    | nil => simp at hn
    | cons e es => exact ⟨e, es, rfl⟩
  have e1 : idx (x0 :: e :: es) 1 = .ok e := rfl
  have e2 : idx (List.replicate (m + 1) (0 : ℝ)) 0 = .ok 0 := rfl
  rw [e1, e2]
  simp only [Res.ok_bind]
  rw [← etaLoop_step (x0 := x0) (m + 1) (m + 1 - 1) 1 (by omega) le_rfl hn]
  congr 1

/-- The value of `eta2direct`. -/
theorem eta2direct_eq {tof t0 : ℝ} {es : List ℝ} (hl : es ≠ []) :
    eta2direct .eta tof (t0 :: es) = .ok (t0 :: etaTimes tof es) := by
  unfold eta2direct
  have : 1 ≤ es.length := List.length_pos_iff.2 hl
  simp [etaLoop_eq this le_rfl, idx]

/-- The fractions of the remaining time that given times are. -/
noncomputable def etaGenes (rem : ℝ) : List ℝ → List ℝ
  | [] => []
  | t :: ts => t / rem :: etaGenes (rem - t) ts

@[simp] theorem etaGenes_length (rem : ℝ) (ts : List ℝ) : (etaGenes rem ts).length = ts.length := by
  induction ts generalizing rem with
  | nil => rfl
  | cons e es ih => simp [etaGenes, ih]

theorem etaGenes_append (a b : List ℝ) (rem : ℝ) :
    etaGenes rem (a ++ b) = etaGenes rem a ++ etaGenes (rem - a.sum) b := by
  induction a generalizing rem with
  | nil => simp [etaGenes]
  | cons e a ih => simp only [List.cons_append, etaGenes, ih, List.sum_cons, sub_sub]

theorem direct2eta_step {tof t0 : ℝ} {ts : List ℝ} (h : ∀ i < ts.length, tof - (ts.take i).sum ≠ 0) : ∀ k i, i + k = ts.length →
    1 ≤ i → (List.range' (i + 1) k).foldlM (fun r i => do
        let q ← div? ((t0 :: ts).getD i 0) (tof - (((t0 :: ts).take i).drop 1).sum)
        return r.set i q) (t0 :: (etaGenes tof (ts.take i) ++ ts.drop i)) = some (t0 :: etaGenes tof ts) := by
  intro k
  induction k with
  | zero => intro i hi _; simp [show i = ts.length by omega]
  | succ k ih =>
    intro i hi h1
    have hlt : i < ts.length := by omega
    rw [List.range'_succ, List.foldlM_cons]
    have e1 : (t0 :: ts).getD (i + 1) 0 = ts[i] := by simp [List.getD_eq_getElem?_getD, hlt]
    have e2 : ((t0 :: ts).take (i + 1)).drop 1 = ts.take i := by simp
    rw [e1, e2, div?_ok (h i hlt)]
    simp only [Option.bind_eq_bind, Option.bind_some, Option.pure_def]
    rw [← ih (i + 1) (by omega) (by omega)]
    congr 1
    have hlen : (etaGenes tof (ts.take i)).length = i := by simp; omega
    rw [List.set_cons_succ, List.set_append_right _ _ (by omega), hlen, Nat.sub_self, List.drop_eq_getElem_cons hlt,
      List.set_cons_zero, List.take_succ_eq_append_getElem hlt, etaGenes_append]
    simp [etaGenes]

/-- The value of `direct2eta`. -/
theorem direct2eta_eq {tof t0 : ℝ} {ts : List ℝ} (hl : ts ≠ []) (h : ∀ i < ts.length, tof - (ts.take i).sum ≠ 0) :
    direct2eta .eta tof (t0 :: ts) = .ok (some (t0 :: etaGenes tof ts)) := by
  unfold direct2eta
  have h1 : 1 ≤ ts.length := List.length_pos_iff.2 hl
  obtain ⟨t, ts, rfl⟩ : ∃ t ts', ts = t :: ts' := by
    cases ts with
    | nil => exact absurd rfl hl
    | cons t ts => exact ⟨t, ts, rfl⟩
  have e1 : idx (t0 :: t :: ts) 1 = .ok t := rfl
  have h0 : tof ≠ 0 := by simpa using h 0 (by simp)
  rw [if_neg (by simp), e1]
  simp only [Res.ok_bind, Res.pure_eq, div?_ok h0, Option.bind_eq_bind, Option.bind_some]
  congr 1
  rw [← direct2eta_step h ((t :: ts).length - 1) 1 (by simp; omega) le_rfl]
  simp [etaGenes]

theorem etaTimes_genes {rem : ℝ} {ts : List ℝ} (h : ∀ i < ts.length, rem - (ts.take i).sum ≠ 0) :
    etaTimes rem (etaGenes rem ts) = ts := by
  induction ts generalizing rem with
  | nil => rfl
  | cons t ts ih =>
    have h0 : rem ≠ 0 := by simpa using h 0 (by simp)
    have e : rem * (t / rem) = t := by field_simp
    rw [etaGenes, etaTimes, e, ih]
    intro i hi
    have := h (i + 1) (by simpa using hi)
    simpa [sub_sub] using this

theorem etaGenes_times {rem : ℝ} (h0 : rem ≠ 0) {es : List ℝ} (h : ∀ e ∈ es, e ≠ 1) :
    etaGenes rem (etaTimes rem es) = es := by
  induction es generalizing rem with
  | nil => rfl
  | cons e es ih =>
    have he := h e List.mem_cons_self
    rw [etaTimes, etaGenes, ih _ fun a ha => h a (List.mem_cons_of_mem _ ha), mul_div_cancel_left₀ _ h0]
    rw [show rem - rem * e = rem * (1 - e) by ring]
    exact mul_ne_zero h0 (sub_ne_zero.2 (Ne.symm he))

theorem etaTimes_rem (rem : ℝ) (es : List ℝ) : rem - (etaTimes rem es).sum = rem * (es.map (1 - ·)).prod := by
  induction es generalizing rem with
  | nil => simp [etaTimes]
  | cons e es ih =>
    rw [etaTimes, List.sum_cons, ← sub_sub, ih, List.map_cons, List.prod_cons]; ring

/-- **C52**: from eta to direct and back. -/
theorem C52_eta_direct {tof t0 : ℝ} {es : List ℝ} (hl : es ≠ []) (h0 : tof ≠ 0) (h : ∀ e ∈ es, e ≠ 1) :
    ∃ d, eta2direct .eta tof (t0 :: es) = .ok d ∧ direct2eta .eta tof d = .ok (some (t0 :: es)) := by
  refine ⟨_, eta2direct_eq hl, ?_⟩
  rw [direct2eta_eq, etaGenes_times h0 h]
  · intro h; apply hl; simpa using congrArg List.length h
  · intro i _
    rw [etaTimes_take, etaTimes_rem]
    refine mul_ne_zero h0 (List.prod_ne_zero ?_)
    intro hm
    obtain ⟨e, he, h1⟩ := List.mem_map.1 hm
    exact h e (List.mem_of_mem_take he) (by linarith)

/-- **C52**: from direct to eta and back, for times such that some time is left at each leg. -/
theorem C52_direct_eta {tof t0 : ℝ} {ts : List ℝ} (hl : ts ≠ []) (h : ∀ i < ts.length, tof - (ts.take i).sum ≠ 0) :
    ∃ e, direct2eta .eta tof (t0 :: ts) = .ok (some e) ∧ eta2direct .eta tof e = .ok (t0 :: ts) := by
  refine ⟨_, direct2eta_eq hl h, ?_⟩
  rw [eta2direct_eq, etaTimes_genes h]
  intro h; apply hl; simpa using congrArg List.length h

/-- **C52**: the times decoded from genes in (0, 1) are positive and add up to less than the maximum; what is left of it is
the product of the complements of the genes. -/
theorem C52_eta_times {tof t0 : ℝ} {es : List ℝ} (hl : es ≠ []) (h0 : 0 < tof) (h : ∀ e ∈ es, 0 < e ∧ e < 1) :
    ∃ ts, eta2direct .eta tof (t0 :: es) = .ok (t0 :: ts) ∧ ts.length = es.length ∧ (∀ t ∈ ts, 0 < t) ∧ ts.sum < tof ∧
      ts.sum = tof * (1 - (es.map (1 - ·)).prod) := by
  refine ⟨_, eta2direct_eq hl, etaTimes_length _ _, ?_, ?_, ?_⟩
  · clear hl
    induction es generalizing tof with
    | nil => simp [etaTimes]
    | cons e es ih =>
      intro t ht
      have he := h e List.mem_cons_self
      rw [etaTimes, List.mem_cons] at ht
      rcases ht with rfl | ht
      · exact mul_pos h0 he.1
      · refine ih (tof := tof - tof * e) ?_ (fun a ha => h a (List.mem_cons_of_mem _ ha)) t ht
        nlinarith
  · have := etaTimes_rem tof es
    have hp : 0 < (es.map (1 - ·)).prod := List.prod_pos fun a ha => by
      obtain ⟨e, he, rfl⟩ := List.mem_map.1 ha
      linarith [(h e he).2]
    nlinarith
  · linarith [etaTimes_rem tof es]

/-- **C52**: the genes made by `direct2eta` from positive times that add up to less than the maximum are in (0, 1). -/
theorem C52_direct_eta_range {tof t0 : ℝ} {ts : List ℝ} (hl : ts ≠ []) (h : ∀ t ∈ ts, 0 < t) (hs : ts.sum < tof) :
    ∃ es, direct2eta .eta tof (t0 :: ts) = .ok (some (t0 :: es)) ∧ es.length = ts.length ∧ ∀ e ∈ es, 0 < e ∧ e < 1 := by
  have hrem : ∀ i, 0 < tof - (ts.take i).sum := fun i => by
    have h1 : (ts.take i).sum + (ts.drop i).sum = ts.sum := by rw [← List.sum_append, List.take_append_drop]
    have h2 : 0 ≤ (ts.drop i).sum := List.sum_nonneg fun a ha => (h a (List.mem_of_mem_drop ha)).le
    linarith
  refine ⟨_, direct2eta_eq hl fun i _ => (hrem i).ne', etaGenes_length _ _, ?_⟩
  clear hl hrem
  induction ts generalizing tof with
  | nil => simp [etaGenes]
  | cons t ts ih =>
    intro e he
    have ht := h t List.mem_cons_self
    have hn : 0 ≤ ts.sum := List.sum_nonneg fun a ha => (h a (List.mem_cons_of_mem _ ha)).le
    rw [List.sum_cons] at hs
    have h0 : 0 < tof := by linarith
    rw [etaGenes, List.mem_cons] at he
    rcases he with rfl | he
    · exact ⟨div_pos ht h0, (div_lt_one h0).2 (by linarith)⟩
    · exact ih (tof := tof - t) (fun a ha => h a (List.mem_cons_of_mem _ ha)) (by linarith) e he

example : ∃ ts, eta2direct .eta 1000 [0, 1 / 2, 1 / 2, 1 / 5] = .ok (0 :: ts) ∧ ts.length = 3 ∧ (∀ t ∈ ts, 0 < t) ∧ ts.sum < 1000 ∧
    ts.sum = 800 := by
  obtain ⟨ts, h1, h2, h3, h4, h5⟩ := C52_eta_times (tof := 1000) (t0 := 0) (es := [1 / 2, 1 / 2, 1 / 5]) (by simp) (by norm_num)
    (by simp; norm_num)
  exact ⟨ts, h1, h2, h3, h4, by rw [h5]; norm_num⟩

example : ∃ e, direct2eta .eta 1000 [0, 100, 200, 300] = .ok (some e) ∧ eta2direct .eta 1000 e = .ok [0, 100, 200, 300] :=
  C52_direct_eta (by simp) fun i hi => by
    have : i = 0 ∨ i = 1 ∨ i = 2 := by simp at hi; omega
    rcases this with rfl | rfl | rfl <;> norm_num

/-! ## C52, the decoding used by the objective function -/

/-- **C52**: the objective function decodes the times as the conversion functions do. -/
theorem C52_decode (tof t0 : ℝ) (g : List ℝ) :
    (∀ d, alpha2direct (t0 :: g) = .ok (some (t0 :: d)) → decodeTofs .alpha tof (g.length - 1) (t0 :: g) = .ok (some d)) ∧
    (∀ d, eta2direct .eta tof (t0 :: g) = .ok (t0 :: d) → decodeTofs .eta tof g.length (t0 :: g) = .ok (some d)) ∧
    decodeTofs .direct tof g.length (t0 :: g) = .ok (some g) := by
  refine ⟨fun d h => ?_, fun d h => ?_, rfl⟩
  · cases g with
    | nil => simp [alpha2direct, idx] at h
    | cons T al =>
      unfold alpha2direct at h
      unfold decodeTofs
      simp only [idx, List.getElem?_cons_succ, List.getElem?_cons_zero, Res.ok_bind, Res.pure_eq, Res.ok.injEq] at h ⊢
      generalize List.mapM Lambert.log? (List.drop 2 (t0 :: T :: al)) = m at h ⊢
      cases m with
      | none => simp at h
      | some m =>
        simp only [Option.bind_eq_bind, Option.bind_some] at h ⊢
        generalize List.mapM (fun t => div? t m.sum) m = q at h ⊢
        cases q with
        | none => simp at h
        | some q => simpa using h
  · unfold eta2direct at h
    unfold decodeTofs
    rw [if_neg (by simp)] at h
    simp only [List.length_cons, Nat.add_sub_cancel] at h
    revert h
    cases etaLoop tof (t0 :: g) g.length with
    | ok T => simp [idx]
    | err e => simp
    | ub => simp

end Kep3.Mga
