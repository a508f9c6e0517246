import Verif.Archive.Model

/-!
# C69: serialization and pickling
-/

namespace Kep3.Archive

/-- The values of the members are ones their C++ types can hold. -/
def Holds {S : Type} (ms : List (Member S)) (s : S) : Prop := ∀ m ∈ ms, m.codec.ok (m.get s)

/-- `old` with the members on the list taken from `s`. -/
def restore {S : Type} (ms : List (Member S)) (s old : S) : S := ms.foldl (fun t m => m.set (m.get s) t) old

theorem load_save {S : Type} (ms : List (Member S)) (s : S) (h : Holds ms s) (old : S) (rest : Bytes) :
    load ms old (save ms s ++ rest) = some (restore ms s old, rest) := by
  induction ms generalizing old with
  | nil => rfl
  | cons m ms ih =>
    have h1 := h m List.mem_cons_self
    have h2 : Holds ms s := fun k hk => h k (List.mem_cons_of_mem _ hk)
    unfold save load
    rw [List.flatMap_cons, List.append_assoc, m.codec.law _ h1]
    exact ih h2 _

theorem setstate_getstate {S : Type} (ms : List (Member S)) (s : S) (h : Holds ms s) (x : S) :
    setstate ms x (getstate ms s) = .ok (restore ms s x) := by
  have := load_save ms s h x []
  rw [List.append_nil] at this
  simp only [setstate, getstate, this]

variable {F : Type} (P : Prims F)

/-- **C69**: an epoch survives pickling. -/
theorem C69_epoch (e x : Int) (h : Holds (epochMembers P) e) :
    setstate (epochMembers P) x (getstate (epochMembers P) e) = .ok e := setstate_getstate _ _ h x

/-- **C69**: every member of a Lambert problem survives pickling, whatever the default object. -/
theorem C69_lambert (l x : Lambert F) (h : Holds (lambertMembers P) l) :
    setstate (lambertMembers P) x (getstate (lambertMembers P) l) = .ok l := setstate_getstate _ _ h x

/-- **C69**: every member of a Stark problem survives serialization. -/
theorem C69_stark (l x : Stark.Prob F) (h : Holds (starkMembers P) l) :
    setstate (starkMembers P) x (getstate (starkMembers P) l) = .ok l := setstate_getstate _ _ h x

/-- **C69**: every member of a Sims-Flanagan leg survives pickling. -/
theorem C69_sims_flanagan (l x : SF.Leg F) (h : Holds (sfMembers P) l) :
    setstate (sfMembers P) x (getstate (sfMembers P) l) = .ok l := setstate_getstate _ _ h x

/-- **C69, partial**: of a high-fidelity leg, every member but the variational integrator, which is the one of the default
leg. Missing: the equality with `l`, which is false (`C69_hf_loses`). -/
theorem C69_hf_partial (l x : HF.Leg F) (h : Holds (hfMembers P) l) :
    setstate (hfMembers P) x (getstate (hfMembers P) l) = .ok { l with tasVar := x.tasVar } := setstate_getstate _ _ h x

/-- **C69, negation**: a high-fidelity leg with a variational integrator other than the default one's (another gravity
parameter, specific impulse or tolerance) is changed by pickling. -/
theorem C69_hf_loses (l x : HF.Leg F) (h : Holds (hfMembers P) l) (hx : x.tasVar ≠ l.tasVar) :
    setstate (hfMembers P) x (getstate (hfMembers P) l) ≠ .ok l := by
  rw [C69_hf_partial P l x h]
  intro hc
  injection hc with hc
  have := congrArg HF.Leg.tasVar hc
  exact hx this

/-- The planets that C++ code can serialize, with members that fit and, for `vsop2013`, the entry point its constructors
look up. -/
def Udpla.Good (jit : String → String) : Udpla F → Prop
  | .null => P.str.ok "null_udpla"
  | .keplerian k => P.str.ok "keplerian" ∧ Holds (keplerianMembers P) k
  | .jplLp j => P.str.ok "jpl_lp" ∧ Holds (jplMembers P) j
  | .vsop v => P.str.ok "vsop2013" ∧ P.llvm.ok v.state ∧ P.dbl.ok v.mu ∧ P.str.ok v.plName ∧ P.dbl.ok v.thresh ∧
      v.evalF = jit v.state
  | .python _ => False

/-- **C69, partial**: a planet of one of the C++ classes is read back with its class and all its members, and nothing behind
it in the archive is touched. Missing: planets made from Python objects (`C69_python_planet`). -/
theorem C69_planet_partial (jit : String → String) (k0 : Keplerian F) (j0 : JplLp F) (p : Udpla F) (h : p.Good P jit)
    (rest : Bytes) : ∃ b, planetSave P p = .ok b ∧ planetLoad P jit k0 j0 (b ++ rest) = some (p, rest) := by
  cases p with
  | null => exact ⟨_, rfl, by unfold planetLoad; rw [P.str.law _ h]; simp⟩
  | keplerian k =>
    refine ⟨_, rfl, ?_⟩
    unfold planetLoad
    rw [List.append_assoc, P.str.law _ h.1]
    simp [load_save _ _ h.2]
    rfl
  | jplLp j =>
    refine ⟨_, rfl, ?_⟩
    unfold planetLoad
    rw [List.append_assoc, P.str.law _ h.1]
    simp [load_save _ _ h.2]
    rfl
  | vsop v =>
    obtain ⟨h0, h1, h2, h3, h4, h5⟩ := h
    refine ⟨_, rfl, ?_⟩
    unfold planetLoad vsopSave vsopLoad
    simp [List.append_assoc, P.str.law _ h0, P.llvm.law _ h1, P.dbl.law _ h2, P.str.law _ h3, P.dbl.law _ h4]
    rw [← h5]
  | python o => exact h.elim

/-- **C69, negation**: the planets that can be pickled are exactly those not made from a Python object. -/
theorem C69_python_planet (p : Udpla F) : (∃ b, planetSave P p = .ok b) ↔ ∀ obj, p ≠ .python obj := by
  cases p <;> simp [planetSave]

/-- **C69**: a state that is not one bytes object is refused, whatever the class. -/
theorem C69_bad_state {S : Type} (ms : List (Member S)) (x : S) (state : List PyObj) (s : S)
    (h : setstate ms x state = .ok s) : ∃ b, state = [.bytes b] := by
  rcases state with _ | ⟨a, _ | ⟨b, t⟩⟩
  · simp [setstate] at h
  · cases a with
    | bytes b => exact ⟨b, rfl⟩
    | other => simp [setstate] at h
  · simp [setstate] at h

/-! ## The primitives exist: little-endian numbers -/

/-- `k` bytes, least significant first. -/
def leSave : ℕ → ℕ → Bytes
  | 0, _ => []
  | k + 1, n => UInt8.ofNat (n % 256) :: leSave k (n / 256)

/-- Reading them. -/
def leLoad : ℕ → Bytes → Option (ℕ × Bytes)
  | 0, bs => some (0, bs)
  | _ + 1, [] => none
  | k + 1, b :: bs => do
    let (n, bs) ← leLoad k bs
    return (b.toNat + 256 * n, bs)

theorem le_law (k n : ℕ) (h : n < 256 ^ k) (rest : Bytes) : leLoad k (leSave k n ++ rest) = some (n, rest) := by
  induction k generalizing n with
  | zero => have : n = 0 := by simpa using h
            subst this; rfl
  | succ k ih =>
    have h' : n / 256 < 256 ^ k := by rw [Nat.div_lt_iff_lt_mul (by norm_num)]; rwa [pow_succ] at h
    have hb : n % 256 % 256 = n % 256 := by omega
    simp [leSave, leLoad, ih _ h', UInt8.toNat_ofNat']
    omega

/-- Natural numbers below `256^k`. -/
def le (k : ℕ) : Codec ℕ := ⟨leSave k, leLoad k, fun n => n < 256 ^ k, fun n h rest => le_law k n h rest⟩

/-- Two's complement. -/
def i64 : Codec Int where
  save i := leSave 8 (i % 2 ^ 64).toNat
  load bs := (leLoad 8 bs).map fun p => (if p.1 < 2 ^ 63 then (p.1 : Int) else p.1 - 2 ^ 64, p.2)
  ok i := -2 ^ 63 ≤ i ∧ i < 2 ^ 63
  law i h rest := by
    have h0 : 0 ≤ i % 2 ^ 64 := Int.emod_nonneg _ (by norm_num)
    have h1 : i % 2 ^ 64 < 2 ^ 64 := Int.emod_lt_of_pos _ (by norm_num)
    rw [le_law 8 _ (by norm_num; omega)]
    simp only [Option.map_some, Option.some.injEq, Prod.mk.injEq, and_true]
    split_ifs with hc <;> omega

/-- Doubles as their 64 bits, and everything else on top of little-endian numbers. -/
def prims : Prims ℕ where
  dbl := le 8
  bool := (le 1).iso (fun n => n == 1) (fun b => if b then 1 else 0) (by decide)
  char := (le 4).iso Char.ofNat Char.toNat (fun _ => Char.ofNat_toNat _)
  u32 := le 4
  i64 := i64
  cnt := le 8
  ta := (((le 8).prod ((le 8).array 5)).prod ((le 8).prod ((le 8).array 7))).iso
    (fun p => ⟨p.1.1, p.1.2, p.2.1, p.2.2⟩) (fun a => ((a.tol, a.pars), (a.time, a.state))) (fun _ => rfl)
  taVar := (((le 8).prod ((le 8).array 5)).prod ((le 8).prod ((le 8).array 77))).iso
    (fun p => ⟨p.1.1, p.1.2, p.2.1, p.2.2⟩) (fun a => ((a.tol, a.pars), (a.time, a.state))) (fun _ => rfl)
  taHf := (((le 8).prod ((le 8).prod (le 8))).prod ((le 8).v3.prod ((le 8).prod (le 8).st))).iso
    (fun p => ⟨p.1.1, p.1.2.1, p.1.2.2, p.2.1, p.2.2.1, p.2.2.2⟩)
    (fun a => ((a.tol, a.mu, a.veff), (a.u, a.time, a.state))) (fun _ => rfl)
  llvm := (Codec.vector (le 8) ((le 4).iso Char.ofNat Char.toNat (fun _ => Char.ofNat_toNat _))).iso String.ofList
    String.toList (fun _ => String.ofList_toList)

/-- A high-fidelity leg with two segments and another gravity parameter than the default leg. -/
example : ∃ l x : HF.Leg ℕ, Holds (hfMembers prims) l ∧ x.tasVar ≠ l.tasVar := by
  let s : HF.St ℕ := ⟨⟨⟨1, 0, 0⟩, ⟨0, 1, 0⟩⟩, 1⟩
  let a : HF.Integ ℕ := ⟨1, 7, 1, ⟨0, 0, 0⟩, 0, s⟩
  let b : HF.Integ ℕ := ⟨1, 1, 1, ⟨0, 0, 0⟩, 0, s⟩
  refine ⟨⟨s, [0, 0, 0, 0, 0, 0], [0, 0, 0, 0, 0, 0], s, 1, 1, 1, 7, 1, 1, 2, 1, 1, a, a⟩,
    ⟨s, [0, 0, 0, 0, 0, 0], [0, 0, 0, 0, 0, 0], s, 1, 1, 1, 1, 1, 1, 2, 1, 1, b, b⟩, ?_, by decide⟩
  intro m hm
  simp only [hfMembers, List.mem_cons, List.not_mem_nil, or_false] at hm
  rcases hm with rfl | rfl | rfl | rfl | rfl | rfl | rfl | rfl | rfl | rfl | rfl | rfl | rfl | rfl
  all_goals
    simp only [prims, le, Codec.vector, Codec.iso, Codec.prod, Codec.st, Codec.rv, Codec.v3]
    decide +kernel

/-- A planet in heliocentric orbit, with a name, meets the hypotheses. -/
example : ∃ k : Keplerian ℕ, k.name = "Mars" ∧ (Udpla.keplerian k).Good prims id := by
  refine ⟨⟨-5, "Mars", 1, 2, 3, 4, 5, true, ⟨⟨6, 7, 8⟩, ⟨9, 10, 11⟩⟩, fun i => i⟩, rfl, ?_, ?_⟩
  · simp only [prims, Prims.str, le, Codec.vector, Codec.iso]
    decide +kernel
  · intro m hm
    simp only [keplerianMembers, List.mem_cons, List.not_mem_nil, or_false] at hm
    rcases hm with rfl | rfl | rfl | rfl | rfl | rfl | rfl | rfl | rfl | rfl | rfl
    all_goals
      simp only [prims, Prims.str, i64, le, Codec.vector, Codec.iso, Codec.prod, Codec.rv, Codec.v3, Codec.array]
      decide +kernel

end Kep3.Archive
