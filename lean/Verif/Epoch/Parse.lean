import Verif.Epoch.Lemmas
import Mathlib.Tactic.NormNum
import Mathlib.Tactic.IntervalCases

/-!
# Evaluation of the string constructor on well-formed strings
-/

namespace Kep3.Epoch
open Kep3.EpochSpec

theorem ofString_7 (y0 y1 y2 y3 m0 m1 : Nat) (a : Char)
    (h : y0 < 10 ∧ y1 < 10 ∧ y2 < 10 ∧ y3 < 10 ∧ m0 < 10 ∧ m1 < 10) :
    ofString [digitChar y0, digitChar y1, digitChar y2, digitChar y3, a, digitChar m0, digitChar m1]
      = makeTp ((((y0 * 10 + y1) * 10 + y2) * 10 + y3 : Nat) : Int) (m0 * 10 + m1) 1 0 0 0 0 0 := by
  obtain ⟨g0, g1, g2, g3, g4, g5⟩ := h
  unfold ofString
  rw [if_neg (by simp [allowedLengths])]
  simp only [substr, List.length_cons, List.length_nil, List.drop_succ_cons, List.drop_zero,
    List.take_succ_cons, List.take_zero, stoi_four g0 g1 g2 g3, stoi_two g4 g5,
    Res.ok_bind, toUnsigned_nat, Nat.reduceAdd, Nat.reduceLeDiff, if_false]

theorem ofString_10 (y0 y1 y2 y3 m0 m1 d0 d1 : Nat) (a b : Char)
    (h : y0 < 10 ∧ y1 < 10 ∧ y2 < 10 ∧ y3 < 10 ∧ m0 < 10 ∧ m1 < 10 ∧ d0 < 10 ∧ d1 < 10) :
    ofString [digitChar y0, digitChar y1, digitChar y2, digitChar y3, a, digitChar m0, digitChar m1, b, digitChar d0, digitChar d1]
      = makeTp ((((y0 * 10 + y1) * 10 + y2) * 10 + y3 : Nat) : Int) (m0 * 10 + m1) (d0 * 10 + d1) 0 0 0 0 0 := by
  obtain ⟨g0, g1, g2, g3, g4, g5, g6, g7⟩ := h
  unfold ofString
  rw [if_neg (by simp [allowedLengths])]
  simp only [substr, List.length_cons, List.length_nil, List.drop_succ_cons, List.drop_zero,
    List.take_succ_cons, List.take_zero, stoi_four g0 g1 g2 g3, stoi_two g4 g5, stoi_two g6 g7,
    Res.ok_bind, toUnsigned_nat, Nat.reduceAdd, Nat.reduceLeDiff, if_false, if_true]

theorem ofString_13 (y0 y1 y2 y3 m0 m1 d0 d1 h0 h1 : Nat) (a b c : Char)
    (h : y0 < 10 ∧ y1 < 10 ∧ y2 < 10 ∧ y3 < 10 ∧ m0 < 10 ∧ m1 < 10 ∧ d0 < 10 ∧ d1 < 10 ∧ h0 < 10 ∧ h1 < 10) :
    ofString [digitChar y0, digitChar y1, digitChar y2, digitChar y3, a, digitChar m0, digitChar m1, b, digitChar d0, digitChar d1, c, digitChar h0, digitChar h1]
      = makeTp ((((y0 * 10 + y1) * 10 + y2) * 10 + y3 : Nat) : Int) (m0 * 10 + m1) (d0 * 10 + d1) ((h0 * 10 + h1 : Nat) : Int) 0 0 0 0 := by
  obtain ⟨g0, g1, g2, g3, g4, g5, g6, g7, g8, g9⟩ := h
  unfold ofString
  rw [if_neg (by simp [allowedLengths])]
  simp only [substr, List.length_cons, List.length_nil, List.drop_succ_cons, List.drop_zero,
    List.take_succ_cons, List.take_zero, stoi_four g0 g1 g2 g3, stoi_two g4 g5, stoi_two g6 g7, stoi_two g8 g9,
    Res.ok_bind, toUnsigned_nat, Nat.reduceAdd, Nat.reduceLeDiff, if_false, if_true]

theorem ofString_16 (y0 y1 y2 y3 m0 m1 d0 d1 h0 h1 i0 i1 : Nat) (a b c d : Char)
    (h : y0 < 10 ∧ y1 < 10 ∧ y2 < 10 ∧ y3 < 10 ∧ m0 < 10 ∧ m1 < 10 ∧ d0 < 10 ∧ d1 < 10 ∧ h0 < 10 ∧ h1 < 10 ∧ i0 < 10 ∧ i1 < 10) :
    ofString [digitChar y0, digitChar y1, digitChar y2, digitChar y3, a, digitChar m0, digitChar m1, b, digitChar d0, digitChar d1, c, digitChar h0, digitChar h1, d, digitChar i0, digitChar i1]
      = makeTp ((((y0 * 10 + y1) * 10 + y2) * 10 + y3 : Nat) : Int) (m0 * 10 + m1) (d0 * 10 + d1) ((h0 * 10 + h1 : Nat) : Int) ((i0 * 10 + i1 : Nat) : Int) 0 0 0 := by
  obtain ⟨g0, g1, g2, g3, g4, g5, g6, g7, g8, g9, g10, g11⟩ := h
  unfold ofString
  rw [if_neg (by simp [allowedLengths])]
  simp only [substr, List.length_cons, List.length_nil, List.drop_succ_cons, List.drop_zero,
    List.take_succ_cons, List.take_zero, stoi_four g0 g1 g2 g3, stoi_two g4 g5, stoi_two g6 g7, stoi_two g8 g9, stoi_two g10 g11,
    Res.ok_bind, toUnsigned_nat, Nat.reduceAdd, Nat.reduceLeDiff, if_false, if_true]

theorem ofString_19 (y0 y1 y2 y3 m0 m1 d0 d1 h0 h1 i0 i1 s0 s1 : Nat) (a b c d e : Char)
    (h : y0 < 10 ∧ y1 < 10 ∧ y2 < 10 ∧ y3 < 10 ∧ m0 < 10 ∧ m1 < 10 ∧ d0 < 10 ∧ d1 < 10 ∧ h0 < 10 ∧ h1 < 10 ∧ i0 < 10 ∧ i1 < 10 ∧ s0 < 10 ∧ s1 < 10) :
    ofString [digitChar y0, digitChar y1, digitChar y2, digitChar y3, a, digitChar m0, digitChar m1, b, digitChar d0, digitChar d1, c, digitChar h0, digitChar h1, d, digitChar i0, digitChar i1, e, digitChar s0, digitChar s1]
      = makeTp ((((y0 * 10 + y1) * 10 + y2) * 10 + y3 : Nat) : Int) (m0 * 10 + m1) (d0 * 10 + d1) ((h0 * 10 + h1 : Nat) : Int) ((i0 * 10 + i1 : Nat) : Int) ((s0 * 10 + s1 : Nat) : Int) 0 0 := by
  obtain ⟨g0, g1, g2, g3, g4, g5, g6, g7, g8, g9, g10, g11, g12, g13⟩ := h
  unfold ofString
  rw [if_neg (by simp [allowedLengths])]
  simp only [substr, List.length_cons, List.length_nil, List.drop_succ_cons, List.drop_zero,
    List.take_succ_cons, List.take_zero, stoi_four g0 g1 g2 g3, stoi_two g4 g5, stoi_two g6 g7, stoi_two g8 g9, stoi_two g10 g11, stoi_two g12 g13,
    Res.ok_bind, toUnsigned_nat, Nat.reduceAdd, Nat.reduceLeDiff, if_false, if_true]

theorem scale10_ok (k : Nat) (v : Int) (h0 : 0 ≤ v) (h1 : v * 10 ^ k ≤ 2147483647) :
    scale10 k v = .ok (v * 10 ^ k) := by
  induction k generalizing v with
  | zero => simp [scale10]
  | succ k ih =>
    have hp : (1 : Int) ≤ 10 ^ k := by
      have := Nat.one_le_pow k 10 (by omega)
      exact_mod_cast this
    have e : v * 10 ^ (k + 1) = v * 10 * 10 ^ k := by ring
    rw [e] at h1 ⊢
    have hv : v * 10 ≤ 2147483647 := by nlinarith
    unfold scale10
    simp only []
    rw [if_pos ⟨by omega, hv⟩]
    exact ih (v * 10) (by omega) h1

theorem ofString_frac (y0 y1 y2 y3 m0 m1 d0 d1 h0 h1 i0 i1 s0 s1 : Nat) (a b c d e p : Char) (ns : List Nat)
    (h : y0 < 10 ∧ y1 < 10 ∧ y2 < 10 ∧ y3 < 10 ∧ m0 < 10 ∧ m1 < 10 ∧ d0 < 10 ∧ d1 < 10 ∧ h0 < 10 ∧ h1 < 10 ∧ i0 < 10 ∧ i1 < 10 ∧ s0 < 10 ∧ s1 < 10)
    (hns : ∀ n ∈ ns, n < 10) (hl : 1 ≤ ns.length ∧ ns.length ≤ 6) :
    ofString (digitChar y0 :: digitChar y1 :: digitChar y2 :: digitChar y3 :: a :: digitChar m0 :: digitChar m1 :: b :: digitChar d0 :: digitChar d1 :: c :: digitChar h0 :: digitChar h1 :: d :: digitChar i0 :: digitChar i1 :: e :: digitChar s0 :: digitChar s1 :: p :: ns.map digitChar)
      = makeTp ((((y0 * 10 + y1) * 10 + y2) * 10 + y3 : Nat) : Int) (m0 * 10 + m1) (d0 * 10 + d1)
         ((h0 * 10 + h1 : Nat) : Int) ((i0 * 10 + i1 : Nat) : Int) ((s0 * 10 + s1 : Nat) : Int)
         0 ((valOf ns * 10 ^ (6 - ns.length) : Nat) : Int) := by
  obtain ⟨g0, g1, g2, g3, g4, g5, g6, g7, g8, g9, g10, g11, g12, g13⟩ := h
  have hst : stoi (ns.map digitChar) = .ok (valOf ns : Int) :=
    stoi_digits ns hns (by intro hh; rw [hh] at hl; simp at hl) (by omega)
  have hlt := valOf_lt ns hns
  have hsc : scale10 (6 - ns.length) (valOf ns : Int)
      = .ok ((valOf ns * 10 ^ (6 - ns.length) : Nat) : Int) := by
    rw [scale10_ok _ _ (by omega)]
    · push_cast; rfl
    · have e1 : (10 : Nat) ^ ns.length * 10 ^ (6 - ns.length) = 10 ^ 6 := by
        rw [← pow_add]; congr 1; omega
      have e2 : valOf ns * 10 ^ (6 - ns.length) ≤ 10 ^ ns.length * 10 ^ (6 - ns.length) :=
        Nat.mul_le_mul_right _ (by omega)
      rw [e1] at e2
      have e3 : ((valOf ns * 10 ^ (6 - ns.length) : Nat) : Int) ≤ ((10 ^ 6 : Nat) : Int) := by
        exact_mod_cast e2
      push_cast at e3
      exact le_trans e3 (by norm_num)
  have hlen : (ns.map digitChar).length = ns.length := List.length_map _
  obtain ⟨l, hlw⟩ : ∃ l, l = ns.length := ⟨_, rfl⟩
  have hmem : 20 + l ∈ allowedLengths := by
    have : 1 ≤ l ∧ l ≤ 6 := by omega
    obtain ⟨q1, q2⟩ := this
    interval_cases l <;> decide
  unfold ofString
  have hL : ∀ x : List Char, (digitChar y0 :: digitChar y1 :: digitChar y2 :: digitChar y3 :: a :: digitChar m0 :: digitChar m1 :: b :: digitChar d0 :: digitChar d1 :: c :: digitChar h0 :: digitChar h1 :: d :: digitChar i0 :: digitChar i1 :: e :: digitChar s0 :: digitChar s1 :: p :: x).length = 20 + x.length := by
    intro x; simp only [List.length_cons]; omega
  rw [if_neg (by rw [hL, hlen, ← hlw]; simpa using hmem)]
  have q10 : 10 ≤ 20 + ns.length := by omega
  have q13 : 13 ≤ 20 + ns.length := by omega
  have q16 : 16 ≤ 20 + ns.length := by omega
  have q19 : 19 ≤ 20 + ns.length := by omega
  have q21 : 21 ≤ 20 + ns.length := by omega
  simp only [hL, hlen, substr, List.drop_succ_cons, List.drop_zero,
    List.take_succ_cons, List.take_zero, stoi_four g0 g1 g2 g3, stoi_two g4 g5, stoi_two g6 g7, stoi_two g8 g9, stoi_two g10 g11, stoi_two g12 g13,
    Res.ok_bind, toUnsigned_nat, if_pos q10, if_pos q13, if_pos q16, if_pos q19, if_pos q21, hst, hsc]

/-! ## `stoi` on arbitrary strings -/

/-- Last step of `stoi`: range check. -/
theorem range_check {v w : Int}
    (h : (if -2147483648 ≤ v ∧ v ≤ 2147483647 then Res.ok v else Res.err Exc.outOfRange) = .ok w) :
    v = w ∧ fits32 v := by
  split at h
  · injection h with h; exact ⟨h, by assumption⟩
  · cases h

theorem stoi_cases {s : List Char} {v : Int} (h : stoi s = .ok v) :
    fits32 v ∧ ∃ ds : List Char, ds = (skipSign (s.dropWhile isSpace)).takeWhile isDigit ∧
      (v = natOfDigits ds ∨ v = -(natOfDigits ds : Int)) := by
  unfold stoi at h
  simp only [] at h
  by_cases hd : (skipSign (s.dropWhile isSpace)).takeWhile isDigit = []
  · rw [if_pos hd] at h; cases h
  · rw [if_neg hd] at h
    obtain ⟨h1, h2⟩ := range_check h
    subst h1
    refine ⟨h2, _, rfl, ?_⟩
    split
    · exact Or.inr rfl
    · exact Or.inl rfl

theorem stoi_ne_ub (s : List Char) : stoi s ≠ .ub := by
  unfold stoi
  simp only []
  by_cases hd : (skipSign (s.dropWhile isSpace)).takeWhile isDigit = []
  · rw [if_pos hd]; intro h; cases h
  · rw [if_neg hd]
    generalize (if ((s.dropWhile isSpace).head? == some '-') = true then _ else _ : Int) = v
    split <;> (intro h; cases h)

theorem toUnsigned_ne_ub (v : Int) : toUnsigned v ≠ .ub := by
  unfold toUnsigned; split <;> (intro h; cases h)

theorem stoi_fits32 {s : List Char} {v : Int} (h : stoi s = .ok v) : fits32 v := (stoi_cases h).1

theorem mem_takeWhile {α : Type} (p : α → Bool) (l : List α) : ∀ x ∈ l.takeWhile p, p x = true := by
  induction l with
  | nil => simp
  | cons a l ih =>
    rw [List.takeWhile_cons]
    split
    · intro x hx
      rcases List.mem_cons.1 hx with rfl | hx
      · assumption
      · exact ih x hx
    · simp

theorem natOfDigits_lt (ds : List Char) (h : ∀ c ∈ ds, isDigit c = true) :
    natOfDigits ds < 10 ^ ds.length := by
  have e : ds = (ds.map digitVal).map digitChar := by
    rw [List.map_map]
    have : ∀ c ∈ ds, (digitChar ∘ digitVal) c = c := by
      intro c hc
      have := h c hc
      unfold isDigit at this
      simp only [decide_eq_true_eq] at this
      show Char.ofNat (48 + (c.toNat - 48)) = c
      have e : 48 + (c.toNat - 48) = c.toNat := by omega
      rw [e, Char.ofNat_toNat]
    conv => lhs; rw [← List.map_id ds]
    exact List.map_congr_left (fun c hc => (this c hc).symm)
  have hlt : ∀ n ∈ ds.map digitVal, n < 10 := by
    intro n hn
    obtain ⟨c, hc, rfl⟩ := List.mem_map.1 hn
    have := h c hc
    unfold isDigit at this
    simp only [decide_eq_true_eq] at this
    unfold digitVal; omega
  have h1 : natOfDigits ds = valOf (ds.map digitVal) := by
    conv => lhs; rw [e]
    exact natOfDigits_map _ hlt 0
  have h2 := valOf_lt _ hlt
  rw [List.length_map] at h2
  omega

theorem stoi_bound {s : List Char} {v : Int} (h : stoi s = .ok v) :
    -(10 ^ s.length : Int) < v ∧ v < 10 ^ s.length := by
  obtain ⟨_, ds, hds, hv⟩ := stoi_cases h
  have hdig : ∀ c ∈ ds, isDigit c = true := by
    subst hds; exact mem_takeWhile _ _
  have hlen : ds.length ≤ s.length := by
    subst hds
    refine le_trans (List.takeWhile_prefix _).length_le ?_
    have h1 : (s.dropWhile isSpace).length ≤ s.length := (List.dropWhile_suffix _).length_le
    unfold skipSign
    split
    · simp only [List.length_tail]; omega
    · exact h1
  have hn := natOfDigits_lt ds hdig
  have hp : (10 : Nat) ^ ds.length ≤ 10 ^ s.length := Nat.pow_le_pow_right (by omega) hlen
  have hn' : (natOfDigits ds : Int) < 10 ^ s.length := by
    have : natOfDigits ds < 10 ^ s.length := by omega
    exact_mod_cast this
  omega

theorem scale10_fits (l : Nat) (v : Int) (hl : l ≤ 6) (hb : -(10 ^ l : Int) < v ∧ v < 10 ^ l) :
    ∃ w, scale10 (6 - l) v = .ok w ∧ fits32 w := by
  have key : ∀ (k : Nat) (v : Int), -2147483648 ≤ v * 10 ^ k → v * 10 ^ k ≤ 2147483647 →
      scale10 k v = .ok (v * 10 ^ k) := by
    intro k
    induction k with
    | zero => intro v _ _; simp [scale10]
    | succ k ih =>
      intro v h0 h1
      have hp : (1 : Int) ≤ 10 ^ k := by
        have := Nat.one_le_pow k 10 (by omega)
        exact_mod_cast this
      have e : v * 10 ^ (k + 1) = v * 10 * 10 ^ k := by ring
      rw [e] at h0 h1 ⊢
      unfold scale10
      simp only []
      rw [if_pos ⟨by nlinarith, by nlinarith⟩]
      exact ih (v * 10) h0 h1
  have e1 : (10 : Int) ^ l * 10 ^ (6 - l) = 10 ^ 6 := by rw [← pow_add]; congr 1; omega
  have hp : (0 : Int) < 10 ^ (6 - l) := by positivity
  have h1 : v * 10 ^ (6 - l) < 10 ^ 6 := by rw [← e1]; exact mul_lt_mul_of_pos_right hb.2 hp
  have h2 : -(10 ^ 6) < v * 10 ^ (6 - l) := by
    rw [← e1, ← neg_mul]; exact mul_lt_mul_of_pos_right hb.1 hp
  norm_num at h1 h2
  refine ⟨_, key _ _ (by omega) (by omega), ?_⟩
  unfold fits32; omega

end Kep3.Epoch
