import Verif.Mga.Trajectory
import Mathlib.Topology.Order.OrderClosed
import Mathlib.Topology.ContinuousOn

/-!
# The planet made of an MGA trajectory (C54)
-/

namespace Kep3.Mga
open Real V3

/-! ## Running the computations -/

@[simp] theorem run_bind_some {α β : Type} {x : OptionT Res α} {f : α → OptionT Res β} {b : β} :
    (x >>= f).run = .ok (some b) ↔ ∃ a, x.run = .ok (some a) ∧ (f a).run = .ok (some b) := by
  rw [OptionT.run_bind]
  cases h : x.run with
  | ok o => cases o <;> simp [Option.elimM]
  | err e => simp [Option.elimM]
  | ub => simp [Option.elimM]

@[simp] theorem run_lift_some {α : Type} {r : Res α} {a : α} : (lift r).run = .ok (some a) ↔ r = .ok a := by
  unfold lift
  rw [OptionT.run_lift]
  cases r <;> simp

@[simp] theorem run_num_some {α : Type} {o : Option α} {a : α} : (num o).run = .ok (some a) ↔ o = some a := by
  simp [num]

@[simp] theorem run_pure_some {α : Type} {a b : α} : (pure a : OptionT Res α).run = .ok (some b) ↔ a = b := by
  simp

theorem run_lift_bind {α β : Type} {r : Res α} {a : α} (h : r = .ok a) (f : α → OptionT Res β) :
    (lift r >>= f) = f a := by
  subst h
  apply OptionT.ext
  simp [lift, Option.elimM]

theorem run_num_bind {α β : Type} (a : α) (f : α → OptionT Res β) : (num (some a) >>= f) = f a := by
  apply OptionT.ext
  simp [num, Option.elimM]

theorem run_lift_err {α β : Type} (e : Exc) (f : α → OptionT Res β) : (lift (.err e) >>= f) = lift (.err e) := by
  apply OptionT.ext
  simp [lift, Option.elimM]

@[simp] theorem idx_ok {α : Type} {l : List α} {i : ℕ} {a : α} : idx l i = .ok a ↔ l[i]? = some a := by
  unfold idx
  cases l[i]? <;> simp

theorem mapM_some {α β : Type} {f : α → OptionT Res β} {is : List α} {l : List β}
    (h : (is.mapM f).run = .ok (some l)) : l.length = is.length ∧ ∀ (k : ℕ) i, is[k]? = some i →
      ∃ a, l[k]? = some a ∧ (f i).run = .ok (some a) := by
  induction is generalizing l with
  | nil =>
    simp only [List.mapM_nil, run_pure_some] at h
    subst h
    simp
  | cons i is ih =>
    simp only [List.mapM_cons, run_bind_some, run_pure_some] at h
    obtain ⟨a, h1, l', h2, rfl⟩ := h
    obtain ⟨h3, h4⟩ := ih h2
    refine ⟨by simp [h3], fun k i' hk => ?_⟩
    cases k with
    | zero =>
      simp only [List.getElem?_cons_zero, Option.some.injEq] at hk
      subst hk
      exact ⟨a, rfl, h1⟩
    | succ k => exact h4 k i' hk

theorem mapM_range {β : Type} {f : ℕ → OptionT Res β} {n : ℕ} {l : List β}
    (h : ((List.range n).mapM f).run = .ok (some l)) : l.length = n ∧ ∀ k < n,
      ∃ a, l[k]? = some a ∧ (f k).run = .ok (some a) := by
  obtain ⟨h1, h2⟩ := mapM_some h
  exact ⟨by simpa using h1, fun k hk => h2 k k (by simp [hk])⟩

@[simp] theorem cumsum_length (a : ℝ) (l : List ℝ) : (cumsum a l).length = l.length := by
  induction l generalizing a with
  | nil => rfl
  | cons b l ih => simp [cumsum, ih]

theorem cumsum_get (acc : ℝ) (l : List ℝ) (k : ℕ) (hk : k < l.length) : (cumsum acc l)[k]? = some (acc + (l.take (k + 1)).sum) := by
  induction l generalizing acc k with
  | nil => simp at hk
  | cons b l ih =>
    cases k with
    | zero => simp [cumsum]
    | succ k =>
      rw [cumsum, List.getElem?_cons_succ, ih _ _ (by simpa using hk)]
      simp [add_assoc]

/-! ## What the trajectory is -/

/-- A trajectory through the planets of the sequence: encounters at the epochs, at the positions of the planets, and a Lambert
arc for each leg, whose duration is the difference of the epochs. -/
structure Legs (j : ℕ → Lambert.Junk) (p : Mga) (legs : List Lambert) (ep : List ℝ) : Prop where
  nonempty : 0 < p.nLegs
  legs_len : legs.length = p.nLegs
  ep_len : ep.length = p.nLegs + 1
  planets : ∀ (i : ℕ) t, ep[i]? = some t → ∃ u x, p.seq[i]? = some u ∧ Planet.eph u t = .ok x ∧ (nums x).isSome
  arc : ∀ (i : ℕ) s t, ep[i]? = some s → ep[i + 1]? = some t → ∃ u w a b x y L, p.seq[i]? = some u ∧ p.seq[i + 1]? = some w ∧
    Planet.eph u s = .ok a ∧ nums a = some x ∧ Planet.eph w t = .ok b ∧ nums b = some y ∧ legs[i]? = some L ∧
    Lambert.make (j i) x.r y.r ((t - s) * DAY2SEC) p.commonMu false 0 = .ok L

theorem fly_legs {j : ℕ → Lambert.Junk} {p : Mga} {t0 : ℝ} {T : List ℝ} {d : Dvs} (h : (fly j p t0 T).run = .ok (some d))
    (hT : T.length = p.nLegs) : Legs j p d.legs d.ep ∧ d.ep[0]? = some t0 ∧ d.T = T ∧ d.ep = cumsum 0 (t0 :: T) := by
  unfold fly at h
  simp only [run_bind_some, run_lift_some, run_pure_some, idx_ok] at h
  obtain ⟨rv, h1, lps, h2, fb, h3, s, h4, l0, h5, vs, h6, f, h7, lf, h8, vf, h9, h10⟩ := h
  obtain ⟨h11, h12, h13, h14⟩ : d.legs = lps ∧ d.ep = cumsum 0 (t0 :: T) ∧ d.T = T ∧ True := by
    split_ifs at h10 <;> simp only [run_bind_some, run_lift_some, run_num_some, run_pure_some, idx_ok] at h10
    · obtain ⟨u, -, mu, -, arr, -, rfl⟩ := h10
      exact ⟨rfl, rfl, rfl, trivial⟩
    · obtain ⟨arr, -, rfl⟩ := h10
      exact ⟨rfl, rfl, rfl, trivial⟩
  rw [h11, h12, h13]
  obtain ⟨a1, a2⟩ := mapM_range h1
  obtain ⟨b1, b2⟩ := mapM_range h2
  simp only [run_bind_some, run_lift_some, run_num_some, idx_ok] at a2 b2
  have hn : 0 < p.nLegs := by
    rw [← b1]
    by_contra h0
    simp [List.eq_nil_of_length_eq_zero (by omega : lps.length = 0)] at h5
  have hseq : p.seq.length = p.nLegs + 1 := by unfold Mga.nLegs at hn ⊢; omega
  refine ⟨⟨hn, b1, by simp [hT], fun i t ht => ?_, fun i s t hs ht => ?_⟩, by simp [cumsum], rfl, rfl⟩
  · have hi : i < p.seq.length := by
      have := (List.getElem?_eq_some_iff.1 ht).1
      simp [hT] at this
      omega
    obtain ⟨a, -, u, hu, t', ht', x, hx, hnum⟩ := a2 i hi
    rw [ht] at ht'
    obtain rfl := Option.some.inj ht'
    exact ⟨u, x, hu, hx, by simp [hnum]⟩
  · have hi : i < p.nLegs := by
      have := (List.getElem?_eq_some_iff.1 ht).1
      simp [hT] at this
      omega
    obtain ⟨L, hL, x, hx, y, hy, τ, hτ, hmake⟩ := b2 i hi
    obtain ⟨x', hx', u, hu, s', hs', a, ha, hna⟩ := a2 i (by omega)
    obtain ⟨y', hy', w, hw, t', ht', b, hb, hnb⟩ := a2 (i + 1) (by omega)
    rw [hs] at hs'
    rw [ht] at ht'
    rw [hx] at hx'
    rw [hy] at hy'
    obtain rfl := Option.some.inj hs'
    obtain rfl := Option.some.inj ht'
    obtain rfl := Option.some.inj hx'
    obtain rfl := Option.some.inj hy'
    refine ⟨u, w, a, b, x, y, L, hu, hw, ha, hna, hb, hnb, hL, ?_⟩
    have e1 := cumsum_get 0 (t0 :: T) i (by simp [hT]; omega)
    have e2 := cumsum_get 0 (t0 :: T) (i + 1) (by simp [hT]; omega)
    rw [hs] at e1
    rw [ht] at e2
    simp only [zero_add, Option.some.injEq, List.take_succ_cons, List.sum_cons] at e1 e2
    have hiT : i < T.length := by omega
    have e3 : (T.take (i + 1)).sum = (T.take i).sum + T[i] := by
      rw [List.take_succ_eq_append_getElem hiT, List.sum_append, List.sum_singleton]
    have e4 : T[i] = τ := (List.getElem?_eq_some_iff.1 hτ).2
    rw [show t - s = τ by rw [e1, e2, e3, e4]; ring]
    exact hmake

/-- The decoded times of a chromosome of the right length. -/
theorem decode_length {p : Mga} {x T : List ℝ} (h : decodeTofs p.enc p.tof p.nLegs x = .ok (some T)) (hx : x.length = p.dim)
    (hn : 0 < p.nLegs) : T.length = p.nLegs := by
  unfold decodeTofs at h
  unfold Mga.dim at hx
  have mapM_len : ∀ {α β : Type} {f : α → Option β} {l : List α} {m : List β}, l.mapM f = some m → m.length = l.length := by
    intro α β f l
    induction l with
    | nil => intro m hm; simp at hm; simp [← hm]
    | cons a l ih =>
      intro m hm
      rw [List.mapM_cons] at hm
      simp only [Option.bind_eq_bind, Option.bind_eq_some_iff, Option.pure_def, Option.some.injEq] at hm
      obtain ⟨b, -, m', h2, rfl⟩ := hm
      simp [ih h2]
  rcases he : p.enc with _ | _ | _ <;> rw [he] at h hx <;> simp only at h hx
  · cases h1 : idx x 1 with
    | ok x1 =>
      rw [h1] at h
      simp only [Res.ok_bind, Res.pure_eq, Res.ok.injEq, Option.bind_eq_bind, Option.bind_eq_some_iff, Option.pure_def,
        Option.some.injEq] at h
      obtain ⟨m, h2, q, h3, rfl⟩ := h
      rw [List.length_map, mapM_len h3, mapM_len h2]
      simp; omega
    | err e => rw [h1] at h; simp at h
    | ub => rw [h1] at h; simp at h
  · simp only [Res.pure_eq, Res.ok.injEq, Option.some.injEq] at h
    subst h
    simp; omega
  · cases x with
    | nil => simp at hx
    | cons x0 es =>
      have hes : es.length = p.nLegs := by simpa using hx
      rw [etaLoop_eq (by omega) (by omega)] at h
      simp only [Res.ok_bind, Res.pure_eq, Res.ok.injEq, Option.some.injEq] at h
      subst h
      simp; omega

/-- What `to_planet` hands to the planet. -/
theorem toPlanet_legs {j : ℕ → Lambert.Junk} {p : Mga} {x : List ℝ} {legs : List Lambert} {ep : List ℝ}
    (h : (toPlanet j p x).run = .ok (some (legs, ep))) : Legs j p legs ep ∧ ep[0]? = x[0]? := by
  unfold toPlanet at h
  split_ifs at h with hl
  · simp at h
  rw [not_not] at hl
  simp only [run_bind_some, run_pure_some, computeDvs, run_lift_some, idx_ok, OptionT.run_mk] at h
  obtain ⟨d, ⟨T, hT, x0, hx0, hd⟩, he⟩ := h
  have hn : 0 < p.nLegs := by
    by_contra h0
    have h0 : p.nLegs = 0 := by omega
    unfold fly at hd
    simp only [run_bind_some, run_lift_some, run_pure_some, idx_ok, h0] at hd
    obtain ⟨rv, h1, lps, h2, fb, h3, s, h4, l0, h5, -⟩ := hd
    obtain ⟨b1, -⟩ := mapM_range h2
    simp [List.eq_nil_of_length_eq_zero b1] at h5
  obtain ⟨h1, h2, -, -⟩ := fly_legs hd (decode_length hT hl hn)
  simp only [Prod.mk.injEq] at he
  obtain ⟨rfl, rfl⟩ := he
  exact ⟨h1, by rw [h2, hx0]⟩

/-! ## The search -/

theorem getD_eq {a : List ℝ} {k : ℕ} (h : k < a.length) : a.getD k 0 = a[k] := by simp [h]

theorem bisect_spec {a : List ℝ} {t : ℝ} (lo hi : ℕ) (hhi : hi ≤ a.length) (hlo : lo ≤ hi)
    (h1 : ∀ k < lo, a.getD k 0 < t) (h2 : ∀ k, hi ≤ k → k < a.length → t ≤ a.getD k 0) (hs : a.Pairwise (· < ·)) :
    (∀ k < bisect a t lo hi, a.getD k 0 < t) ∧ (∀ k, bisect a t lo hi ≤ k → k < a.length → t ≤ a.getD k 0) := by
  have mono : ∀ k m, k ≤ m → m < a.length → a.getD k 0 ≤ a.getD m 0 := by
    intro k m hkm hm
    rw [getD_eq (by omega), getD_eq hm]
    rcases hkm.lt_or_eq with h | rfl
    · exact (List.pairwise_iff_getElem.1 hs k m (by omega) hm h).le
    · exact le_rfl
  induction hk : hi - lo using Nat.strongRecOn generalizing lo hi with
  | ind n ih =>
    rw [bisect]
    dsimp only
    split_ifs with hlt hm
    · refine ih (hi - ((lo + hi) / 2 + 1)) (by omega) _ _ hhi (by omega) (fun k hk => ?_) h2 rfl
      exact (mono k ((lo + hi) / 2) (by omega) (by omega)).trans_lt hm
    · refine ih ((lo + hi) / 2 - lo) (by omega) _ _ (by omega) (by omega) h1 (fun k hk hk' => ?_) rfl
      exact (not_lt.1 hm).trans (mono _ k hk hk')
    · obtain rfl : lo = hi := by omega
      exact ⟨h1, h2⟩

theorem bisect_eq {a : List ℝ} (hs : a.Pairwise (· < ·)) {i : ℕ} {s t u : ℝ} (h1 : a[i]? = some s) (h2 : a[i + 1]? = some u)
    (hst : s < t) (htu : t ≤ u) : bisect a t 0 a.length = i + 1 := by
  obtain ⟨b1, b2⟩ := bisect_spec (a := a) (t := t) 0 a.length le_rfl (Nat.zero_le _) (by simp) (fun k h h' => by omega) hs
  have g1 : a.getD i 0 = s := by rw [List.getD_eq_getElem?_getD, h1]; rfl
  have g2 : a.getD (i + 1) 0 = u := by rw [List.getD_eq_getElem?_getD, h2]; rfl
  have hi := (List.getElem?_eq_some_iff.1 h2).1
  apply le_antisymm
  · by_contra h
    have := b1 (i + 1) (by omega)
    rw [g2] at this
    linarith
  · by_contra h
    have := b2 i (by omega) (by omega)
    rw [g1] at this
    linarith

section
variable {j : ℕ → Lambert.Junk} {p : Mga} {legs : List Lambert} {ep : List ℝ}

theorem Legs.step (L : Legs j p legs ep) {i : ℕ} {s t : ℝ} (hs : ep[i]? = some s) (ht : ep[i + 1]? = some t) : s < t := by
  obtain ⟨u, w, a, b, x, y, L, -, -, -, -, -, -, -, hm⟩ := L.arc i s t hs ht
  have := (Lambert.make_inv hm).1
  unfold DAY2SEC at this
  linarith

/-- The epochs increase, since the Lambert solver accepts positive times only. -/
theorem Legs.sorted (L : Legs j p legs ep) : ep.Pairwise (· < ·) := by
  rw [← List.isChain_iff_pairwise, List.isChain_iff_getElem]
  intro i hi
  exact L.step (List.getElem?_eq_getElem _) (List.getElem?_eq_getElem hi)

/-! ## C54 -/

/-- **C54**: outside the mission a `ValueError`; at launch and on each leg the state on the arc of that leg, propagated from
its beginning. Every epoch of the mission is at launch or on exactly one leg. -/
theorem C54_select (sv : Solver) {x : List ℝ} (h : (toPlanet j p x).run = .ok (some (legs, ep)))
    (hmu : ∀ u ∈ p.seq, Planet.getMuCentralBody u = .ok p.commonMu) :
    ∃ t0 tf, x[0]? = some t0 ∧ ep[0]? = some t0 ∧ ep[p.nLegs]? = some tf ∧ t0 < tf ∧
      (∀ t, t < t0 ∨ tf < t → (eph sv p legs ep t).run = .err .value) ∧
      (∀ L v, legs[0]? = some L → L.v0[0]? = some (some v) → (eph sv p legs ep t0).run = .ok (some ⟨L.r0, v⟩)) ∧
      (∀ (i : ℕ) s e t L v, ep[i]? = some s → ep[i + 1]? = some e → s < t → t ≤ e → legs[i]? = some L →
        L.v0[0]? = some (some v) →
        (eph sv p legs ep t).run = propagateLagrangian sv ⟨L.r0, v⟩ ((t - s) * DAY2SEC) p.commonMu) ∧
      (∀ t, t0 < t → t ≤ tf → ∃! i : ℕ, ∃ s e, ep[i]? = some s ∧ ep[i + 1]? = some e ∧ s < t ∧ t ≤ e) := by
  obtain ⟨G, hx⟩ := toPlanet_legs h
  have hn := G.nonempty
  have hep := G.ep_len
  have hsorted := G.sorted
  have e0 : ep[0]? = some ep[0] := List.getElem?_eq_getElem (by omega)
  have ef : ep[p.nLegs]? = some ep[p.nLegs] := List.getElem?_eq_getElem (by omega)
  have efi : idx ep (ep.length - 1) = .ok ep[p.nLegs] := by
    rw [idx_ok, show ep.length - 1 = p.nLegs by omega, ef]
  have lt : ∀ {a b : ℕ} {s t : ℝ}, a < b → ep[a]? = some s → ep[b]? = some t → s < t := by
    intro a b s t hab ha hb
    obtain ⟨_, rfl⟩ := List.getElem?_eq_some_iff.1 ha
    obtain ⟨_, rfl⟩ := List.getElem?_eq_some_iff.1 hb
    exact List.pairwise_iff_getElem.1 hsorted a b _ _ hab
  have h0f : ep[0] < ep[p.nLegs] := lt hn e0 ef
  refine ⟨ep[0], ep[p.nLegs], by rw [← hx, e0], e0, ef, h0f, ?_, ?_, ?_, ?_⟩
  · intro t ht
    unfold eph
    rw [run_lift_bind (idx_ok.2 e0)]
    by_cases h1 : t < ep[0]
    · rw [if_pos h1]; rfl
    · rw [if_neg h1, run_lift_bind efi, if_pos (ht.resolve_left h1)]
      rfl
  · intro L v hL hv
    unfold eph
    rw [run_lift_bind (idx_ok.2 e0), if_neg (lt_irrefl _), run_lift_bind efi, if_neg h0f.not_gt, if_pos rfl,
      run_lift_bind (idx_ok.2 hL)]
    simp only [first]
    rw [run_lift_bind (idx_ok.2 hv), run_num_bind]
    rfl
  · intro i s e t L v hs he hst hte hL hv
    have hi := (List.getElem?_eq_some_iff.1 he).1
    have h1 : ep[0] ≤ s := by
      rcases Nat.eq_zero_or_pos i with rfl | hi0
      · rw [e0] at hs; exact (Option.some.inj hs).le
      · exact (lt hi0 e0 hs).le
    have h2 : e ≤ ep[p.nLegs] := by
      rcases (show i + 1 ≤ p.nLegs by omega).lt_or_eq with h | h
      · exact (lt h he ef).le
      · rw [h, ef] at he; exact (Option.some.inj he).ge
    obtain ⟨u, hu⟩ : ∃ u, p.seq[0]? = some u := by
      obtain ⟨u, -, hu, -⟩ := G.planets 0 _ e0
      exact ⟨u, hu⟩
    have hmu0 : Planet.getMuCentralBody u = .ok p.commonMu := hmu u (List.mem_of_getElem? hu)
    unfold eph
    rw [run_lift_bind (idx_ok.2 e0), if_neg (by linarith), run_lift_bind efi, if_neg (by linarith), if_neg (by linarith),
      bisect_eq hsorted hs he hst hte]
    have p1 : idxPred legs (i + 1) = .ok L := by unfold idxPred; rw [if_neg (by omega)]; exact idx_ok.2 hL
    have p2 : idxPred ep (i + 1) = .ok s := by unfold idxPred; rw [if_neg (by omega)]; exact idx_ok.2 hs
    simp only [run_lift_bind p1, run_lift_bind p2, run_lift_bind (idx_ok.2 hu), run_lift_bind hmu0, first]
    rw [run_lift_bind (idx_ok.2 hv), run_num_bind]
    rfl
  · intro t h1 h2
    obtain ⟨b1, b2⟩ := bisect_spec (a := ep) (t := t) 0 ep.length le_rfl (Nat.zero_le _) (by simp) (fun k h h' => by omega) hsorted
    have g0 : ep.getD 0 0 = ep[0] := by exact getD_eq (by omega)
    have gf : ep.getD p.nLegs 0 = ep[p.nLegs] := by exact getD_eq (by omega)
    obtain ⟨k, hk⟩ : ∃ k, bisect ep t 0 ep.length = k + 1 := by
      refine Nat.exists_eq_succ_of_ne_zero fun h0 => ?_
      have := b2 0 (by omega) (by omega)
      rw [g0] at this
      linarith
    have hkn : k < p.nLegs := by
      by_contra hc
      have := b1 p.nLegs (by omega)
      rw [gf] at this
      linarith
    have c1 := b1 k (by omega)
    have c2 := b2 (k + 1) (by omega) (by omega)
    rw [getD_eq (by omega)] at c1 c2
    refine ⟨k, ⟨_, _, List.getElem?_eq_getElem (by omega), List.getElem?_eq_getElem (by omega), c1, c2⟩, ?_⟩
    rintro i ⟨s, e, hs, he, h3, h4⟩
    have := bisect_eq hsorted hs he h3 h4
    omega

/-- What the leg must be for the statements on the motion: its velocity is that of a transfer between its ends in its time
(`Lambert.C63_solver`), it is not a parabola and, if a hyperbola, in the range of the propagator. -/
def GoodLeg (L : Lambert) (v w : V3 ℝ) : Prop :=
  L.v0[0]? = some (some v) ∧ Lambert.Transfer L.r0 L.r1 L.tof L.mu false 0 v w ∧ energy ⟨L.r0, v⟩ L.mu ≠ 0 ∧
    HypRange ⟨L.r0, v⟩ L.mu L.tof

theorem hypRange_mono {x : RV ℝ} {mu a b : ℝ} (h : HypRange x mu b) (hab : |a| ≤ |b|) : HypRange x mu a := fun hE => by
  refine le_trans ?_ (h hE)
  have := sqrt_nonneg mu
  have := sqrt_nonneg (-alphaOf x mu)
  gcongr

/-- **C54**: over the whole mission the planet made of the trajectory has a state; it passes through the position of each planet
of the sequence at its epoch, moves on each leg on a two-body orbit, and its position is continuous, fly-bys included. Partial: the Lambert solver must have found the transfer of each leg exactly
(`GoodLeg`); on a parabola, for one, it returns no velocity (`Lambert.C63_parabola`). -/
theorem C54_continuous_partial {sv : Solver} (hsv : sv.Sound) (hq : sv.Quick) {x : List ℝ}
    (h : (toPlanet j p x).run = .ok (some (legs, ep))) (hmu : ∀ u ∈ p.seq, Planet.getMuCentralBody u = .ok p.commonMu)
    (hgood : ∀ (i : ℕ) L, legs[i]? = some L → ∃ v w, GoodLeg L v w) :
    ∃ (γ : ℝ → RV ℝ) (t0 tf : ℝ), x[0]? = some t0 ∧ ep[0]? = some t0 ∧ ep[p.nLegs]? = some tf ∧
      (∀ t, t0 ≤ t → t ≤ tf → (eph sv p legs ep t).run = .ok (some (γ t))) ∧
      (∀ (i : ℕ) t, ep[i]? = some t → ∃ u a y, p.seq[i]? = some u ∧ Planet.eph u t = .ok a ∧ nums a = some y ∧
        (γ t).r = y.r) ∧
      (∀ (i : ℕ) s e, ep[i]? = some s → ep[i + 1]? = some e → ∃ φ, TwoBody p.commonMu φ ∧
        ∀ t, s < t → t ≤ e → γ t = φ ((t - s) * DAY2SEC)) ∧
      ContinuousOn (fun t => (γ t).r.x) (Set.Icc t0 tf) ∧ ContinuousOn (fun t => (γ t).r.y) (Set.Icc t0 tf) ∧
      ContinuousOn (fun t => (γ t).r.z) (Set.Icc t0 tf) := by
  obtain ⟨G, -⟩ := toPlanet_legs h
  obtain ⟨t0, tf, hx0, e0, ef, h0f, -, hstart, hleg, hcover⟩ := C54_select sv h hmu
  have hd : (0 : ℝ) < DAY2SEC := by unfold DAY2SEC; norm_num
  -- the motion on each leg
  have key : ∀ (i : ℕ) s e, ep[i]? = some s → ep[i + 1]? = some e → ∃ φ, TwoBody p.commonMu φ ∧
      (∀ t, s < t → t ≤ e → (eph sv p legs ep t).run = .ok (some (φ ((t - s) * DAY2SEC)))) ∧
      (i = 0 → (eph sv p legs ep t0).run = .ok (some (φ 0))) ∧
      (∃ u a y, p.seq[i]? = some u ∧ Planet.eph u s = .ok a ∧ nums a = some y ∧ (φ 0).r = y.r) ∧
      (∃ u a y, p.seq[i + 1]? = some u ∧ Planet.eph u e = .ok a ∧ nums a = some y ∧ (φ ((e - s) * DAY2SEC)).r = y.r) := by
    intro i s e hs he
    obtain ⟨u, w, a, b, y, z, L, hu, hw, ha, hna, hb, hnb, hL, hm⟩ := G.arc i s e hs he
    obtain ⟨v, v', hv, hT, hE, hr⟩ := hgood i L hL
    obtain ⟨htof, hmu0, g, -, -, -, hLe⟩ := Lambert.make_inv hm
    have l1 : L.r0 = y.r := by rw [hLe]
    have l2 : L.r1 = z.r := by rw [hLe]
    have l3 : L.tof = (e - s) * DAY2SEC := by rw [hLe]
    have l4 : L.mu = p.commonMu := by rw [hLe]
    rw [l3, l4] at hT hr
    rw [l4] at hE
    obtain ⟨hz, ⟨ψ, hψ, q0, q1⟩, -⟩ := hT
    have hh : angMom ⟨L.r0, v⟩ ≠ 0 := by
      intro h0
      have : (cross L.r0 v).z = 0 := congrArg V3.z h0
      rw [this] at hz
      exact lt_irrefl _ hz
    have hflow := twoBody_unique hmu0 hψ (by rw [q0]; exact hh)
    rw [q0] at hflow
    refine ⟨kepFlow ⟨L.r0, v⟩ p.commonMu, kepFlow_twoBody hmu0 hh, fun t h1 h2 => ?_, ?_, ?_, ?_⟩
    · rw [hleg i s e t L v hs he h1 h2 hL hv]
      rcases propagateLagrangian_run hmu0 hh sv hsv ((t - s) * DAY2SEC) hE (hypRange_mono hr (by
        rw [abs_of_nonneg (mul_nonneg (by linarith) hd.le), abs_of_nonneg htof.le]
        exact mul_le_mul_of_nonneg_right (by linarith) hd.le)) with ⟨-, hnq⟩ | h3
      · exact absurd hq hnq
      · exact h3
    · rintro rfl
      rw [hstart L v hL hv, kepFlow_zero hmu0 hh]
    · exact ⟨u, a, y, hu, ha, hna, by rw [kepFlow_zero hmu0 hh]; exact l1⟩
    · exact ⟨w, b, z, hw, hb, hnb, by rw [← hflow, q1]; exact l2⟩
  have n0 := G.nonempty
  have hep := G.ep_len
  -- a state at every epoch
  have hall : ∀ t, t0 ≤ t → t ≤ tf → ∃ y, (eph sv p legs ep t).run = .ok (some y) := by
    intro t h1 h2
    rcases h1.lt_or_eq with h1 | rfl
    · obtain ⟨i, ⟨s, e, hs, he, h3, h4⟩, -⟩ := hcover t h1 h2
      obtain ⟨φ, -, h5, -⟩ := key i s e hs he
      exact ⟨_, h5 t h3 h4⟩
    · obtain ⟨φ, -, -, h5, -⟩ := key 0 t0 ep[1] e0 (List.getElem?_eq_getElem _)
      exact ⟨_, h5 rfl⟩
  have lt0 : ∀ (i : ℕ) s, ep[i]? = some s → t0 ≤ s ∧ s ≤ tf := by
    intro i s hs
    obtain ⟨hi, rfl⟩ := List.getElem?_eq_some_iff.1 hs
    obtain ⟨h0', rfl⟩ := List.getElem?_eq_some_iff.1 e0
    obtain ⟨hf', rfl⟩ := List.getElem?_eq_some_iff.1 ef
    constructor
    · rcases Nat.eq_zero_or_pos i with rfl | hi0
      · exact le_rfl
      · exact (List.pairwise_iff_getElem.1 G.sorted 0 i _ _ hi0).le
    · rcases (show i ≤ p.nLegs by omega).lt_or_eq with h | rfl
      · exact (List.pairwise_iff_getElem.1 G.sorted i p.nLegs _ _ h).le
      · exact le_rfl
  let γ : ℝ → RV ℝ := fun t => if h : t0 ≤ t ∧ t ≤ tf then (hall t h.1 h.2).choose else ⟨⟨0, 0, 0⟩, ⟨0, 0, 0⟩⟩
  have hγ : ∀ t, t0 ≤ t → t ≤ tf → (eph sv p legs ep t).run = .ok (some (γ t)) := by
    intro t h1 h2
    simp only [γ, h1, h2, and_self, dif_pos]
    exact (hall t h1 h2).choose_spec
  have hval : ∀ {t y}, t0 ≤ t → t ≤ tf → (eph sv p legs ep t).run = .ok (some y) → γ t = y := by
    intro t y h1 h2 h3
    have := hγ t h1 h2
    rw [h3] at this
    simpa using this.symm
  -- the position at the encounters
  have hpos : ∀ (i : ℕ) t, ep[i]? = some t → ∃ u a y, p.seq[i]? = some u ∧ Planet.eph u t = .ok a ∧ nums a = some y ∧
        (γ t).r = y.r := by
    intro i t ht
    have hb := lt0 i t ht
    cases i with
    | zero =>
      obtain rfl : t0 = t := by rw [e0] at ht; exact Option.some.inj ht
      obtain ⟨φ, -, -, h5, ⟨u, a, y, h6, h7, h8, h9⟩, -⟩ := key 0 t0 ep[1] e0 (List.getElem?_eq_getElem _)
      exact ⟨u, a, y, h6, h7, h8, by rw [hval hb.1 hb.2 (h5 rfl), h9]⟩
    | succ i =>
      have hi := (List.getElem?_eq_some_iff.1 ht).1
      have hs : ep[i]? = some ep[i] := List.getElem?_eq_getElem (by omega)
      obtain ⟨φ, -, h5, -, -, ⟨u, a, y, h6, h7, h8, h9⟩⟩ := key i ep[i] t hs ht
      exact ⟨u, a, y, h6, h7, h8, by rw [hval hb.1 hb.2 (h5 t (G.step hs ht) le_rfl), h9]⟩
  have hmotion : ∀ (i : ℕ) s e, ep[i]? = some s → ep[i + 1]? = some e → ∃ φ, TwoBody p.commonMu φ ∧
      (∀ t, s < t → t ≤ e → γ t = φ ((t - s) * DAY2SEC)) ∧ ∀ t, s ≤ t → t ≤ e → (γ t).r = (φ ((t - s) * DAY2SEC)).r := by
    intro i s e hs he
    obtain ⟨φ, h4, h5, -, ⟨u, a, y, h6, h7, h8, h9⟩, -⟩ := key i s e hs he
    have hI : ∀ t, s < t → t ≤ e → γ t = φ ((t - s) * DAY2SEC) := fun t h1 h2 =>
      hval ((lt0 i s hs).1.trans h1.le) (h2.trans (lt0 _ e he).2) (h5 t h1 h2)
    refine ⟨φ, h4, hI, fun t h1 h2 => ?_⟩
    rcases h1.lt_or_eq with h1 | rfl
    · rw [hI t h1 h2]
    · obtain ⟨u', a', y', k1, k2, k3, k4⟩ := hpos i s hs
      rw [h6] at k1
      obtain rfl := Option.some.inj k1
      rw [h7] at k2
      obtain rfl := Res.ok.inj k2
      rw [h8] at k3
      obtain rfl := Option.some.inj k3
      rw [k4, sub_self, zero_mul, h9]
  -- gluing
  have glue : ∀ q : V3 ℝ → ℝ, (∀ φ, TwoBody p.commonMu φ → Continuous fun τ => q (φ τ).r) →
      ContinuousOn (fun t => q (γ t).r) (Set.Icc t0 tf) := by
    intro q hc
    have hstep : ∀ (i : ℕ) t, ep[i]? = some t → ContinuousOn (fun t => q (γ t).r) (Set.Icc t0 t) := by
      intro i
      induction i with
      | zero =>
        intro t ht
        obtain rfl : t0 = t := by rw [e0] at ht; exact Option.some.inj ht
        rw [Set.Icc_self]
        exact continuousOn_singleton _ _
      | succ i ih =>
        intro t ht
        have hi := (List.getElem?_eq_some_iff.1 ht).1
        have hs : ep[i]? = some ep[i] := List.getElem?_eq_getElem (by omega)
        rw [← Set.Icc_union_Icc_eq_Icc (lt0 i _ hs).1 (G.step hs ht).le]
        refine (ih _ hs).union_of_isClosed ?_ isClosed_Icc isClosed_Icc
        obtain ⟨φ, h4, -, h5⟩ := hmotion i ep[i] t hs ht
        refine ContinuousOn.congr (f := fun τ => q (φ ((τ - ep[i]) * DAY2SEC)).r) ?_ fun τ hτ => ?_
        · exact ((hc φ h4).comp ((continuous_id.sub continuous_const).mul continuous_const)).continuousOn
        · simp only [h5 τ hτ.1 hτ.2]
    exact hstep _ _ ef
  refine ⟨γ, t0, tf, hx0, e0, ef, hγ, hpos, fun i s e hs he => ?_, ?_, ?_, ?_⟩
  · obtain ⟨φ, h1, h2, -⟩ := hmotion i s e hs he
    exact ⟨φ, h1, h2⟩
  · exact glue V3.x fun φ hφ => continuous_iff_continuousAt.2 fun τ => (hφ.rx τ).continuousAt
  · exact glue V3.y fun φ hφ => continuous_iff_continuousAt.2 fun τ => (hφ.ry τ).continuousAt
  · exact glue V3.z fun φ hφ => continuous_iff_continuousAt.2 fun τ => (hφ.rz τ).continuousAt
end

/-! ## An instance -/

/-- A planet standing still. -/
def still (r : V3 ℝ) : Udpla where
  typeName := "still"
  eph := fun _ => .ok (spread (some ⟨r, ⟨0, 0, 0⟩⟩))
  ephV := none
  muCentralBody := some (.ok 1)
  muSelf := none
  radius := none
  safeRadius := none
  name := none
  extraInfo := none
  period := none
  elements := none

noncomputable def exMga : Mga where
  seq := [still Lambert.exR0, still Lambert.exR1]
  tof := 0
  vinf := 0
  multiObjective := true
  enc := .direct
  orbitInsertion := false
  eTarget := 0
  rpTarget := 1
  commonMu := 1

theorem nums_spread (x : RV ℝ) : nums (spread (some x)) = some x := rfl

/-- The hypotheses of `C54_select`, `C54_continuous_partial` (and of the statements on the fitness) met by the transfer with the least
energy between two planets. -/
theorem exMga_flies (j : ℕ → Lambert.Junk) : ∃ T L v w, (computeDvs j exMga [7, T]).run =
      .ok (some ⟨max 0 (norm (⟨0, 0, 0⟩ - v : V3 ℝ) - 0), [], norm (⟨0, 0, 0⟩ - w : V3 ℝ), [L], norm (⟨0, 0, 0⟩ - v : V3 ℝ), [7, 7 + T], [T]⟩) ∧
    L.v1[0]? = some (some w) ∧ GoodLeg L v w := by
  obtain ⟨tof, L, v, w, hL, hx, e0, e1, -, hroot⟩ := Lambert.C33_example (j 0)
  obtain ⟨v', w', e0', e1', hT, -⟩ := Lambert.C63_solver hL Lambert.ex_z hx (by norm_num) (.inr rfl) (by norm_num) hroot
  obtain rfl : v = v' := by rw [e0] at e0'; simpa using e0'
  obtain rfl : w = w' := by rw [e1] at e1'; simpa using e1'
  obtain ⟨v', e0'', hE⟩ := Lambert.C31_energy hL Lambert.ex_z hx
  obtain rfl : v = v' := by rw [e0] at e0''; simpa using e0''
  obtain ⟨-, -, g, hg, -, -, hLe⟩ := Lambert.make_inv hL
  have hE' : energy ⟨Lambert.exR0, v⟩ 1 < 0 := by
    rw [hE]
    have : 0 < Lambert.semiPerimeter Lambert.exR0 Lambert.exR1 := by
      unfold Lambert.semiPerimeter
      rw [Lambert.ex_norm.1, Lambert.ex_norm.2]
      have := V3.norm_nonneg (Lambert.exR1 - Lambert.exR0)
      linarith
    have : 0 < 1 * (1 - (0 : ℝ) ^ 2) / Lambert.semiPerimeter Lambert.exR0 Lambert.exR1 := by positivity
    linarith
  refine ⟨tof / DAY2SEC, L, v, w, ?_, e1, e0, ?_, ?_, ?_⟩
  · have hd : tof / DAY2SEC * DAY2SEC = tof := div_mul_cancel₀ _ (by unfold DAY2SEC; norm_num)
    have h1 : (ephs exMga.seq [7, 7 + tof / DAY2SEC]).run = .ok (some [⟨Lambert.exR0, ⟨0, 0, 0⟩⟩, ⟨Lambert.exR1, ⟨0, 0, 0⟩⟩]) := by
      unfold ephs
      simp only [exMga, List.length_cons, List.length_nil, zero_add, Nat.reduceAdd, List.range_succ, List.range_zero,
        List.nil_append, List.cons_append, List.mapM_cons, List.mapM_nil, run_bind_some, run_lift_some, run_num_some,
        run_pure_some, idx_ok]
      exact ⟨_, ⟨_, rfl, _, rfl, _, rfl, rfl⟩, _, ⟨_, ⟨_, rfl, _, rfl, _, rfl, rfl⟩, _, rfl, rfl⟩, rfl⟩
    have h2 : (lamberts j 1 1 [⟨Lambert.exR0, ⟨0, 0, 0⟩⟩, ⟨Lambert.exR1, ⟨0, 0, 0⟩⟩] [tof / DAY2SEC]).run = .ok (some [L]) := by
      unfold lamberts
      simp only [zero_add, Nat.reduceAdd, List.range_succ, List.range_zero,
        List.nil_append, List.cons_append, List.mapM_cons, List.mapM_nil, run_bind_some, run_lift_some, run_num_some,
        run_pure_some, idx_ok]
      exact ⟨_, ⟨_, rfl, _, rfl, _, rfl, by rw [hd]; exact hL⟩, _, rfl, rfl⟩
    have h3 : (flybys exMga.seq [⟨Lambert.exR0, ⟨0, 0, 0⟩⟩, ⟨Lambert.exR1, ⟨0, 0, 0⟩⟩] [L]).run = .ok (some []) := by
      unfold flybys
      simp
    have h4 : cumsum 0 [7, tof / DAY2SEC] = [7, 7 + tof / DAY2SEC] := by simp [cumsum]
    unfold computeDvs decodeTofs fly first
    simp only [run_bind_some, run_lift_some, run_num_some, run_pure_some, idx_ok, OptionT.run_mk]
    refine ⟨[tof / DAY2SEC], rfl, 7, rfl, _, by rw [h4]; exact h1, _, h2, _, h3, _, rfl, _, rfl, _, ⟨_, e0, rfl⟩, _, rfl, _, rfl,
      _, ⟨_, e1, rfl⟩, ?_⟩
    simp only [exMga, Bool.false_eq_true, if_false, run_bind_some, run_pure_some, h4]
    exact ⟨_, rfl, rfl⟩
  · rw [hLe]; exact hT
  · rw [hLe]; exact hE'.ne
  · rw [hLe]; exact fun h => absurd h hE'.not_gt

/-- The hypotheses of `C54_select` and `C54_continuous_partial` together. -/
theorem C54_example (j : ℕ → Lambert.Junk) : ∃ x legs ep, (toPlanet j exMga x).run = .ok (some (legs, ep)) ∧
    (∀ u ∈ exMga.seq, Planet.getMuCentralBody u = .ok exMga.commonMu) ∧
    (∀ (i : ℕ) L, legs[i]? = some L → ∃ v w, GoodLeg L v w) := by
  obtain ⟨T, L, v, w, h1, -, h2⟩ := exMga_flies j
  refine ⟨[7, T], [L], [7, 7 + T], ?_, ?_, ?_⟩
  · unfold toPlanet
    rw [if_neg (by simp [exMga, Mga.dim, Mga.nLegs])]
    rw [run_bind_some]
    exact ⟨_, h1, rfl⟩
  · intro u hu
    simp only [exMga, List.mem_cons, List.not_mem_nil, or_false] at hu
    rcases hu with rfl | rfl <;> rfl
  · intro i L' hL'
    cases i with
    | zero =>
      simp only [List.getElem?_cons_zero, Option.some.injEq] at hL'
      subst hL'
      exact ⟨v, w, h2⟩
    | succ i => simp at hL'

end Kep3.Mga
