/-
`kep3::udpla::vsop2013` (src/udpla/vsop2013.cpp): validation, compilation cache, ephemerides,
and property C38.

The threads that run constructors are those of `Cache/Machine.lean`: the part of the constructor
under the mutex (143-172) is the call `get () (index, threshold)`.  heyoka is a parameter:
`compile` takes the expression kep3 asks for and answers the compiled function, or `none` when it
throws.  On a miss the constructor uses the function it just compiled instead of the entry of
the map (164, 168); the machine returns the entry, which is the same object as the insertion
always succeeds there (the `assert` of line 165).
-/
import Verif.Basic
import Verif.Dbl
import Verif.V3
import Verif.Constants
import Verif.Cache.Machine
import Verif.Cache.Ta

namespace Kep3.Cache

/-- `pl_idx_map`, src/udpla/vsop2013.cpp 48-50. -/
def plIdx : List (List Char × ℕ) :=
  [("mercury".toList, 1), ("venus".toList, 2), ("earth_moon".toList, 3), ("mars".toList, 4),
   ("jupiter".toList, 5), ("saturn".toList, 6), ("uranus".toList, 7), ("neptune".toList, 8),
   ("pluto".toList, 9)]

/-- What the cached function computes: the expression
`vsop2013_cartesian_icrf(index, time_expr = (tm - shift) / scale, thresh)` of the one variable
`tm`, src/udpla/vsop2013.cpp 149-160. -/
structure VsopExpr where
  index : ℕ
  shift : ℚ
  scale : ℚ
  thresh : Dbl
  deriving DecidableEq

/-- The expression compiled on a miss, src/udpla/vsop2013.cpp 155-156. -/
def vsopExpr (k : ℕ × Dbl) : VsopExpr := ⟨k.1, 1 / 2, 365250, k.2⟩

/-- The cache `state_dict` and its mutex, src/udpla/vsop2013.cpp 65-69, 143-172: keys are pairs
compared component by component.  There is no function that reports the size. -/
def vsopSys {V : Type} (compile : VsopExpr → Option V) : Sys Unit Unit (ℕ × Dbl) V where
  getLock _ := ()
  dimLock _ := ()
  eq a b := decide (a.1 = b.1) && Dbl.beq a.2 b.2
  build _ k := compile (vsopExpr k)
  slot _ k := k

/-- The part of the constructor before the mutex, src/udpla/vsop2013.cpp 123-135: the index and
the name in lower case. -/
def vsopCheck (name : List Char) (thresh : Dbl) : Res (ℕ × List Char) :=
  if thresh = .nan ∨ thresh = .pinf ∨ thresh = .ninf ∨ Dbl.lt thresh 0 = true then
    .err .invalidArgument
  else
    let low := name.map Char.toLower
    match plIdx.lookup low with
    | none => .err .invalidArgument
    | some i => .ok (i, low)

/-- `vsop2013::impl`, src/udpla/vsop2013.cpp 75-83. -/
structure Vsop (V : Type) where
  fn : V
  mu : ℝ
  name : List Char
  thresh : Dbl

/-- The object built by the constructor, src/udpla/vsop2013.cpp 138-140, 168, 171.  `mus` is
heyoka's table of gravity parameters, in AU³/day². -/
noncomputable def vsopImpl {V : Type} (mus : ℕ → ℝ) (i : ℕ) (low : List Char) (thresh : Dbl) (v : V) :
    Vsop V :=
  ⟨v, mus i * AU * AU * AU / (DAY2SEC * DAY2SEC), low, thresh⟩

/-- In the execution that led to `s`, a finished constructor call `vsop2013(name, thresh)`
produced `p`, src/udpla/vsop2013.cpp 121-173. -/
def Made {V : Type} (mus : ℕ → ℝ) (s : St Unit Unit (ℕ × Dbl) V) (name : List Char) (thresh : Dbl)
    (p : Vsop V) : Prop :=
  ∃ i low v, vsopCheck name thresh = .ok (i, low) ∧
    (.get () (i, thresh), .val v) ∈ s.hist ∧ p = vsopImpl mus i low thresh v

/-- `vsop2013::eph`, src/udpla/vsop2013.cpp 209-217.  `eval` runs a compiled function. -/
noncomputable def vsopEph {V : Type} (eval : V → ℝ → Fin 6 → ℝ) (p : Vsop V) (mjd2000 : ℝ) : RV ℝ :=
  let out := eval p.fn mjd2000
  ⟨⟨out 0 * AU, out 1 * AU, out 2 * AU⟩,
   ⟨out 3 * AU / DAY2SEC, out 4 * AU / DAY2SEC, out 5 * AU / DAY2SEC⟩⟩

/-! ### Names -/

/-- The bodies of VSOP2013, with their numbers in the theory. -/
def bodies : List (String × ℕ) :=
  [("mercury", 1), ("venus", 2), ("earth_moon", 3), ("mars", 4), ("jupiter", 5), ("saturn", 6),
   ("uranus", 7), ("neptune", 8), ("pluto", 9)]

/-- `s` is the name `n` up to the case of the letters A-Z. -/
def Same (s : List Char) (n : String) : Prop :=
  List.Forall₂ (fun c d => c = d ∨ ('A' ≤ c ∧ c ≤ 'Z' ∧ d.toNat = c.toNat + 32)) s n.toList

theorem toLower_iff (c d : Char) (hd : d.toNat < 65 ∨ 90 < d.toNat) :
    c.toLower = d ↔ c = d ∨ ('A' ≤ c ∧ c ≤ 'Z' ∧ d.toNat = c.toNat + 32) := by
  have hA : ('A' ≤ c) ↔ 65 ≤ c.toNat := by
    rw [Char.le_def, UInt32.le_iff_toNat_le]; rfl
  have hZ : (c ≤ 'Z') ↔ c.toNat ≤ 90 := by
    rw [Char.le_def, UInt32.le_iff_toNat_le]; rfl
  rw [hA, hZ]
  have ext : ∀ a b : Char, a = b ↔ a.toNat = b.toNat := fun a b =>
    ⟨fun h => h ▸ rfl, fun h => Char.ext (UInt32.toNat_inj.1 h)⟩
  rw [ext, ext]
  by_cases hc : 65 ≤ c.toNat ∧ c.toNat ≤ 90
  · have : c.toLower.toNat = c.toNat + 32 := by
      unfold Char.toLower
      have h : c.val ≥ 'A'.val ∧ c.val ≤ 'Z'.val := by
        constructor
        · rw [ge_iff_le, UInt32.le_iff_toNat_le]; exact hc.1
        · rw [UInt32.le_iff_toNat_le]; exact hc.2
      rw [dif_pos h]
      show (c.val + ('a'.val - 'A'.val)).toNat = c.val.toNat + 32
      rw [UInt32.toNat_add]
      have : ('a'.val - 'A'.val).toNat = 32 := by decide
      rw [this]
      have : c.val.toNat ≤ 90 := hc.2
      omega
    rw [this]
    omega
  · have : c.toLower = c := by
      unfold Char.toLower
      rw [dif_neg]
      rintro ⟨h, h'⟩
      rw [ge_iff_le, UInt32.le_iff_toNat_le] at h
      rw [UInt32.le_iff_toNat_le] at h'
      exact hc ⟨h, h'⟩
    rw [this]
    omega

theorem map_lower_iff (s l : List Char) (hl : ∀ d ∈ l, d.toNat < 65 ∨ 90 < d.toNat) :
    s.map Char.toLower = l ↔
      List.Forall₂ (fun c d => c = d ∨ ('A' ≤ c ∧ c ≤ 'Z' ∧ d.toNat = c.toNat + 32)) s l := by
  induction l generalizing s with
  | nil => cases s <;> simp
  | cons d l ih =>
    cases s with
    | nil => simp
    | cons c s =>
      rw [List.map_cons, List.cons.injEq, List.forall₂_cons, toLower_iff c d (hl d (by simp)),
        ih s fun e he => hl e (by simp [he])]

theorem lookup_mem {α β : Type} [BEq α] [LawfulBEq α] {l : List (α × β)} {a : α} {b : β}
    (h : l.lookup a = some b) : (a, b) ∈ l := by
  induction l with
  | nil => simp at h
  | cons e l ih =>
    obtain ⟨x, y⟩ := e
    rw [List.lookup_cons] at h
    by_cases hx : a = x
    · subst hx; simp at h; simp [h]
    · have : (a == x) = false := by simpa using hx
      rw [this] at h
      exact List.mem_cons_of_mem _ (ih h)

theorem lookup_of_mem {α β : Type} [BEq α] [LawfulBEq α] {l : List (α × β)} (hl : (l.map Prod.fst).Nodup)
    {a : α} {b : β} (h : (a, b) ∈ l) : l.lookup a = some b := by
  induction l with
  | nil => simp at h
  | cons e l ih =>
    obtain ⟨x, y⟩ := e
    rw [List.map_cons, List.nodup_cons] at hl
    rw [List.lookup_cons]
    rcases List.mem_cons.1 h with h' | h
    · cases h'; simp
    · have : a ≠ x := by
        intro e
        exact hl.1 (List.mem_map.2 ⟨_, h, e⟩)
      have : (a == x) = false := by simpa using this
      rw [this]
      exact ih hl.2 h

theorem plIdx_eq : plIdx = bodies.map fun b => (b.1.toList, b.2) := rfl

theorem plIdx_nodup : (plIdx.map Prod.fst).Nodup := by decide

theorem bodies_lower : ∀ b ∈ bodies, ∀ d ∈ b.1.toList, d.toNat < 65 ∨ 90 < d.toNat := by decide

theorem index_iff (name : List Char) (i : ℕ) :
    plIdx.lookup (name.map Char.toLower) = some i ↔ ∃ n, (n, i) ∈ bodies ∧ Same name n := by
  constructor
  · intro h
    have := lookup_mem h
    rw [plIdx_eq, List.mem_map] at this
    obtain ⟨⟨n, j⟩, hb, e⟩ := this
    simp only [Prod.mk.injEq] at e
    obtain ⟨e1, rfl⟩ := e
    exact ⟨n, hb, (map_lower_iff _ _ (bodies_lower _ hb)).1 e1.symm⟩
  · rintro ⟨n, hb, hn⟩
    refine lookup_of_mem plIdx_nodup ?_
    rw [plIdx_eq, List.mem_map]
    exact ⟨(n, i), hb, by rw [(map_lower_iff _ _ (bodies_lower _ hb)).2 hn]⟩

/-- C38: a threshold is refused unless it is finite and not negative, a name unless it is one of
the nine bodies in upper or lower case letters; a refusal is an `invalid_argument` and happens
before the cache is touched.  An accepted name determines the body. -/
theorem C38_validation (name : List Char) (thresh : Dbl) :
    (∀ i low, vsopCheck name thresh = .ok (i, low) ↔
      ((∃ q : ℚ, thresh = .fin q ∧ 0 ≤ q) ∧ ∃ n, (n, i) ∈ bodies ∧ Same name n ∧ low = n.toList)) ∧
    ((¬ ∃ i low, vsopCheck name thresh = .ok (i, low)) → vsopCheck name thresh = .err .invalidArgument) := by
  have hth : (thresh = .nan ∨ thresh = .pinf ∨ thresh = .ninf ∨ Dbl.lt thresh 0 = true) ↔
      ¬ ∃ q : ℚ, thresh = .fin q ∧ 0 ≤ q := by
    cases thresh <;> simp [Dbl.lt]
  constructor
  · intro i low
    unfold vsopCheck
    by_cases ht : ∃ q : ℚ, thresh = .fin q ∧ 0 ≤ q
    · rw [if_neg (by rw [hth]; simpa using ht)]
      simp only [ht, true_and]
      cases hl : plIdx.lookup (name.map Char.toLower) with
      | none =>
        simp only [reduceCtorEq, false_iff]
        rintro ⟨n, h1, h2, -⟩
        have := (index_iff name i).2 ⟨n, h1, h2⟩
        rw [hl] at this; cases this
      | some j =>
        simp only [Res.ok.injEq, Prod.mk.injEq]
        constructor
        · rintro ⟨rfl, rfl⟩
          obtain ⟨n, h1, h2⟩ := (index_iff name j).1 hl
          exact ⟨n, h1, h2, (map_lower_iff _ _ (bodies_lower _ h1)).2 h2⟩
        · rintro ⟨n, h1, h2, rfl⟩
          have := (index_iff name i).2 ⟨n, h1, h2⟩
          rw [hl] at this
          exact ⟨Option.some.inj this, (map_lower_iff _ _ (bodies_lower _ h1)).2 h2⟩
    · rw [if_pos (hth.2 ht)]
      simp [ht]
  · unfold vsopCheck
    intro h
    split_ifs at h ⊢
    · rfl
    · simp only at h ⊢
      cases hl : plIdx.lookup (name.map Char.toLower) with
      | none => rfl
      | some j => rw [hl] at h; exact absurd ⟨j, _, rfl⟩ h

theorem vsopSys_good {V : Type} {compile : VsopExpr → Option V}
    (hc : ∀ e : VsopExpr, e.thresh = .nan → compile e = none) : (vsopSys compile).Good where
  eq_imp := by
    rintro ⟨a, x⟩ ⟨b, y⟩ h
    simp only [vsopSys, Bool.and_eq_true, decide_eq_true_eq] at h
    rw [h.1, beq_eq _ _ h.2]
  refl c k h := by
    have : k.2 ≠ .nan := fun e => h (hc (vsopExpr k) e)
    simp [vsopSys, beq_self _ this]
  slot _ _ := rfl

/-- The constructor only makes requests that passed the validation. -/
def Checked (r : Req Unit (ℕ × Dbl)) : Prop :=
  ∃ name thresh i low, vsopCheck name thresh = .ok (i, low) ∧ r = .get () (i, thresh)

/-- What heyoka does with a NaN threshold does not matter: it is never asked. -/
theorem reach_clean {V : Type} {compile : VsopExpr → Option V} {s : St Unit Unit (ℕ × Dbl) V}
    (h : Reach (vsopSys compile) Checked s) :
    Reach (vsopSys fun e => if e.thresh = .nan then none else compile e) Checked s := by
  have hcalls : ∀ s, Reach (vsopSys compile) Checked s → ∀ t c k pc, s.thr t = some (.get c k, pc) →
      k.2 ≠ .nan := by
    intro s hs t c k pc ht e
    obtain ⟨name, thresh, i, low, h1, h2⟩ := calls_reach hs _ _ _ ht
    cases h2
    simp only at e
    subst e
    simp [vsopCheck] at h1
  have hbuild : ∀ (k : ℕ × Dbl), k.2 ≠ .nan →
      (vsopSys fun e => if e.thresh = .nan then none else compile e).build () k = (vsopSys compile).build () k := by
    intro k hk
    show (if k.2 = .nan then none else compile (vsopExpr k)) = _
    rw [if_neg hk]; rfl
  unfold Reach at h
  induction h with
  | refl => exact .refl
  | tail hs st ih =>
    refine ih.tail ?_
    cases st with
    | call t r ht hP => exact .call _ t r ht hP
    | acquire t r ht ho => exact .acquire _ t r ht ho
    | hit t c k v ht hf => exact .hit _ t c k v ht hf
    | miss t c k ht hf => exact .miss _ t c k ht hf
    | built t c k v ht hb =>
      exact .built _ t c k v ht ((hbuild k (hcalls _ hs _ _ _ _ ht)).trans hb)
    | failed t c k ht hb =>
      exact .failed _ t c k ht ((hbuild k (hcalls _ hs _ _ _ _ ht)).trans hb)
    | insert t c k v ht => exact .insert _ t c k v ht
    | size t c ht => exact .size _ t c ht
    | release t r res ht => exact .release _ t r res ht

/-- C38: under every schedule of any number of constructor calls, a planet holds the compiled
VSOP2013 solution of the body it was asked for, cut at the threshold it was asked for, as a
function of the thousands of Julian years since J2000 (noon), and remembers name and threshold. -/
theorem C38_function {V : Type} {compile : VsopExpr → Option V} {mus : ℕ → ℝ}
    {s : St Unit Unit (ℕ × Dbl) V} (h : Reach (vsopSys compile) Checked s) (name : List Char)
    (thresh : Dbl) (p : Vsop V) (hp : Made mus s name thresh p) :
    ∃ n i, (n, i) ∈ bodies ∧ Same name n ∧ p.name = n.toList ∧ p.thresh = thresh ∧
      compile ⟨i, 1 / 2, 365250, thresh⟩ = some p.fn ∧ p.mu = mus i * AU ^ 3 / DAY2SEC ^ 2 := by
  obtain ⟨i, low, v, h1, h2, rfl⟩ := hp
  obtain ⟨⟨q, hq, -⟩, n, hb, hs, rfl⟩ := ((C38_validation name thresh).1 i low).1 h1
  refine ⟨n, i, hb, hs, rfl, rfl, ?_, ?_⟩
  · rcases lookup_result (vsopSys_good (by simp +contextual)) (reach_clean h) h2 with ⟨w, e, hw⟩ | ⟨e, -⟩
    · cases e
      have : (if thresh = .nan then none else compile (vsopExpr (i, thresh))) = some v := hw
      rw [if_neg (by rw [hq]; simp)] at this
      exact this
    · cases e
  · show _ = _
    unfold vsopImpl
    simp only
    ring

/-- The names of two bodies of the same number are the same, and conversely. -/
theorem bodies_inj : ∀ b ∈ bodies, ∀ c ∈ bodies, b.1 = c.1 ↔ b.2 = c.2 := by decide

/-- C38: two planets of one program run share the compiled function exactly when they have the
same body and the same threshold (if heyoka never compiles two different expressions to the same
function), whichever thread built which one first. -/
theorem C38_share {V : Type} {compile : VsopExpr → Option V} {mus : ℕ → ℝ}
    {s : St Unit Unit (ℕ × Dbl) V} (h : Reach (vsopSys compile) Checked s)
    (name name' : List Char) (thresh thresh' : Dbl) (p p' : Vsop V)
    (hp : Made mus s name thresh p) (hp' : Made mus s name' thresh' p') :
    ((p.name = p'.name ∧ thresh = thresh') → p.fn = p'.fn) ∧
    ((∀ e e' v, compile e = some v → compile e' = some v → e = e') →
      p.fn = p'.fn → p.name = p'.name ∧ thresh = thresh') := by
  obtain ⟨n, i, hb, -, hn, ht, hc, -⟩ := C38_function h name thresh p hp
  obtain ⟨n', i', hb', -, hn', ht', hc', -⟩ := C38_function h name' thresh' p' hp'
  constructor
  · rintro ⟨e1, rfl⟩
    rw [hn, hn'] at e1
    have hne : n = n' := String.toList_inj.1 e1
    have : i = i' := (bodies_inj _ hb _ hb').1 hne
    subst this
    exact Option.some.inj (hc.symm.trans hc')
  · intro hinj e
    rw [e] at hc
    have := hinj _ _ _ hc hc'
    simp only [VsopExpr.mk.injEq] at this
    obtain ⟨rfl, -, -, rfl⟩ := this
    have : n = n' := (bodies_inj _ hb _ hb').2 rfl
    exact ⟨by rw [hn, hn', this], rfl⟩

/-- C38: no data race and no deadlock among constructors. -/
theorem C38_threads {V : Type} {compile : VsopExpr → Option V}
    {s : St Unit Unit (ℕ × Dbl) V} (h : Reach (vsopSys compile) Checked s) :
    (¬ Race s ()) ∧ ((∃ t, s.thr t ≠ none) → ∃ s', Step (vsopSys compile) (fun _ => False) s s') :=
  ⟨no_race h () fun _ => rfl, fun hn => progress h (by unfold Idle; push Not; exact hn)⟩

/-- C38: the ephemerides are those of the VSOP2013 series of the body, in SI units, at the given
number of days since 2000-01-01 00:00.  `series i q τ` is the series in AU and AU/day at `τ`
thousands of Julian years since J2000; the hypothesis is what heyoka's compiler promises. -/
theorem C38_eph {V : Type} {compile : VsopExpr → Option V} {mus : ℕ → ℝ} {eval : V → ℝ → Fin 6 → ℝ}
    {series : ℕ → Dbl → ℝ → Fin 6 → ℝ}
    (heval : ∀ e v t, compile e = some v → eval v t = series e.index e.thresh ((t - e.shift) / e.scale))
    {s : St Unit Unit (ℕ × Dbl) V} (h : Reach (vsopSys compile) Checked s) (name : List Char)
    (thresh : Dbl) (p : Vsop V) (hp : Made mus s name thresh p) (mjd2000 : ℝ) :
    ∃ n i, (n, i) ∈ bodies ∧ Same name n ∧ ∀ τ : ℝ, mjd2000 = τ * 365250 + 1 / 2 →
      ((vsopEph eval p mjd2000).r.x = AU * series i thresh τ 0 ∧
       (vsopEph eval p mjd2000).r.y = AU * series i thresh τ 1 ∧
       (vsopEph eval p mjd2000).r.z = AU * series i thresh τ 2) ∧
      ((vsopEph eval p mjd2000).v.x * 86400 = AU * series i thresh τ 3 ∧
       (vsopEph eval p mjd2000).v.y * 86400 = AU * series i thresh τ 4 ∧
       (vsopEph eval p mjd2000).v.z * 86400 = AU * series i thresh τ 5) := by
  obtain ⟨n, i, hb, hs, -, -, hc, -⟩ := C38_function h name thresh p hp
  refine ⟨n, i, hb, hs, fun τ hτ => ?_⟩
  have hev : eval p.fn mjd2000 = series i thresh τ := by
    rw [heval _ _ _ hc]
    congr 1
    rw [hτ]
    push_cast
    ring
  have hd : DAY2SEC = 86400 := rfl
  unfold vsopEph
  simp only [hev, hd]
  refine ⟨⟨mul_comm _ _, mul_comm _ _, mul_comm _ _⟩, ?_, ?_, ?_⟩ <;> field_simp

/-- C38 on a concrete execution: "Earth_Moon" and "EARTH_MOON" with the same threshold, built one
after the other, share the compiled function. -/
theorem C38_example (compile : VsopExpr → Option ℕ)
    (hc : compile ⟨3, 1 / 2, 365250, .fin (1 / 100000)⟩ = some 5) (mus : ℕ → ℝ) :
    ∃ s, Reach (vsopSys compile) Checked s ∧ ∃ p p',
      Made mus s "Earth_Moon".toList (.fin (1 / 100000)) p ∧
      Made mus s "EARTH_MOON".toList (.fin (1 / 100000)) p' ∧ p.fn = 5 ∧ p'.fn = 5 := by
  have k1 : vsopCheck "Earth_Moon".toList (.fin (1 / 100000)) = .ok (3, "earth_moon".toList) := by
    refine ((C38_validation _ _).1 _ _).2 ⟨⟨_, rfl, by norm_num⟩, "earth_moon", by simp [bodies], ?_, rfl⟩
    unfold Same
    simp
  have k2 : vsopCheck "EARTH_MOON".toList (.fin (1 / 100000)) = .ok (3, "earth_moon".toList) := by
    refine ((C38_validation _ _).1 _ _).2 ⟨⟨_, rfl, by norm_num⟩, "earth_moon", by simp [bodies], ?_, rfl⟩
    unfold Same
    simp
  have h0 : Reach (vsopSys compile) Checked St.init := .refl
  have h1 := h0.step (.call _ 0 (.get () (3, .fin (1 / 100000))) rfl ⟨_, _, _, _, k1, rfl⟩)
  have h2 := h1.step (.acquire _ 0 (.get () (3, .fin (1 / 100000))) (by simp) rfl)
  have h3 := h2.step (.miss _ 0 () (3, .fin (1 / 100000)) (by simp) rfl)
  have h4 := h3.step (.built _ 0 () (3, .fin (1 / 100000)) 5 (by simp) (by exact hc))
  have h5 := h4.step (.insert _ 0 () (3, .fin (1 / 100000)) 5 (by simp))
  have h6 := h5.step (.release _ 0 (.get () (3, .fin (1 / 100000))) (.val 5)
    (by simp [Sys.insert, Sys.find, St.init]))
  have h7 := h6.step (.call _ 1 (.get () (3, .fin (1 / 100000))) (by simp [St.init]) ⟨_, _, _, _, k2, rfl⟩)
  have h8 := h7.step (.acquire _ 1 (.get () (3, .fin (1 / 100000))) (by simp) (by simp))
  have h9 := h8.step (.hit _ 1 () (3, .fin (1 / 100000)) 5 (by simp)
    (by simp [Sys.insert, Sys.find, St.init, vsopSys, Dbl.beq]))
  have h10 := h9.step (.release _ 1 (.get () (3, .fin (1 / 100000))) (.val 5) (by simp))
  exact ⟨_, h10, _, _, ⟨3, _, 5, k1, by simp, rfl⟩, ⟨3, _, 5, k2, by simp, rfl⟩, rfl, rfl⟩

end Kep3.Cache
