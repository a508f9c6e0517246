/-
The four caches of Taylor integrators (`src/ta/stark.cpp`, `src/ta/cr3bp.cpp`), as an
instance of the cache machine of `Cache/Machine.lean`, and properties C39 and C40.

heyoka itself is a parameter: `mk` takes what kep3 passes to the constructor of
`taylor_adaptive` and answers the integrator, or `none` when the constructor throws.
-/
import Verif.Dbl
import Verif.Cache.Machine

namespace Kep3.Cache

/-- The four global maps: `ta_stark_cache`, `ta_stark_var_cache` (src/ta/stark.cpp 75, 98),
`ta_cr3bp_cache`, `ta_cr3bp_var_cache` (src/ta/cr3bp.cpp 66, 88). -/
inductive TaMap
  | stark | starkVar | cr3bp | cr3bpVar
  deriving DecidableEq

/-- The four global mutexes: `ta_stark_mutex`, `ta_stark_var_mutex` (src/ta/stark.cpp 73, 96),
`ta_cr3bp_mutex`, `ta_cr3bp_var_mutex` (src/ta/cr3bp.cpp 64, 86). -/
inductive TaMutex
  | stark | starkVar | cr3bp | cr3bpVar
  deriving DecidableEq

/-- The two systems of differential equations: `stark_dyn` (src/ta/stark.cpp 42-70) and
`cr3bp_dyn` (src/ta/cr3bp.cpp 38-61). -/
inductive Dyn
  | stark | cr3bp
  deriving DecidableEq

/-- What the sensitivities are taken with respect to: a state variable or a parameter. -/
inductive Wrt
  | x | y | z | vx | vy | vz | m
  | par (i : ℕ)
  deriving DecidableEq

/-- The arguments of a `taylor_adaptive<double>` constructor call (src/ta/stark.cpp 86-87 and
111-112, src/ta/cr3bp.cpp 77 and 101). -/
structure Config where
  dyn : Dyn
  /-- the arguments of `var_ode_sys`; `none` without variational equations -/
  wrt : Option (List Wrt)
  init : List ℚ
  tol : Dbl
  compact : Bool
  pars : List ℚ

/-- The constructor call made on a miss.  get_ta_stark: src/ta/stark.cpp 85-87;
get_ta_stark_var: 107-112; get_ta_cr3bp: src/ta/cr3bp.cpp 76-77; get_ta_cr3bp_var: 97-101. -/
def taConfig : TaMap → Dbl → Config
  | .stark, tol => ⟨.stark, none, [1, 1, 1, 1, 1, 1, 1], tol, false, [1, 1, 0, 0, 0]⟩
  | .starkVar, tol =>
    ⟨.stark, some [.x, .y, .z, .vx, .vy, .vz, .m, .par 2, .par 3, .par 4],
      [1, 1, 1, 1, 1, 1, 1], tol, true, [1, 1, 0, 0, 1 / 10 ^ 32]⟩
  | .cr3bp, tol => ⟨.cr3bp, none, [1, 1, 1, 1, 1, 1], tol, false, []⟩
  | .cr3bpVar, tol =>
    ⟨.cr3bp, some [.x, .y, .z, .vx, .vy, .vz], [1, 1, 1, 1, 1, 1], tol, true, []⟩

/-- The mutex taken by the lookup functions: src/ta/stark.cpp 80, 103; src/ta/cr3bp.cpp 71, 93. -/
def taGetLock : TaMap → TaMutex
  | .stark => .stark
  | .starkVar => .starkVar
  | .cr3bp => .cr3bp
  | .cr3bpVar => .cr3bpVar

/-- The mutex taken by the size functions: src/ta/stark.cpp 123, 130; src/ta/cr3bp.cpp 112,
119.  The two variational ones take the mutex of the other map. -/
def taDimLock : TaMap → TaMutex
  | .stark => .stark
  | .starkVar => .stark
  | .cr3bp => .cr3bp
  | .cr3bpVar => .cr3bp

/-- The four caches.  Keys are doubles compared with `==`; the new integrator is inserted under
the tolerance asked for (src/ta/stark.cpp 83, 88, 106, 113; src/ta/cr3bp.cpp 74, 78, 96, 102). -/
def taSys {V : Type} (mk : Config → Option V) : Sys TaMap TaMutex Dbl V where
  getLock := taGetLock
  dimLock := taDimLock
  eq := Dbl.beq
  build c tol := mk (taConfig c tol)
  slot _ tol := tol

/-- heyoka rejects a NaN tolerance (its constructor throws for a tolerance that is not finite
or negative). -/
def RejectsNan {V : Type} (mk : Config → Option V) : Prop :=
  ∀ cfg : Config, cfg.tol = .nan → mk cfg = none

theorem beq_eq (a b : Dbl) (h : Dbl.beq a b = true) : a = b := by
  cases a <;> cases b <;> simp_all [Dbl.beq]

theorem beq_self (a : Dbl) (h : a ≠ .nan) : Dbl.beq a a = true := by
  cases a <;> simp_all [Dbl.beq]

theorem taSys_good {V : Type} {mk : Config → Option V} (hmk : RejectsNan mk) :
    (taSys mk).Good where
  eq_imp := beq_eq
  refl c k h := beq_self k (by
    rintro rfl
    exact h (hmk _ (by cases c <;> rfl)))
  slot _ _ := rfl

/-- What a caller of one of the four lookup functions expects: right equations, right tolerance,
sensitivities exactly for the variational functions, with respect to the whole state and, for
Stark, the three thrust parameters; a start state of the right size. -/
structure Expected (c : TaMap) (tol : Dbl) (cfg : Config) : Prop where
  tol : cfg.tol = tol
  dyn : cfg.dyn = .stark ↔ (c = .stark ∨ c = .starkVar)
  var : cfg.wrt ≠ none ↔ (c = .starkVar ∨ c = .cr3bpVar)
  wrt : ∀ w, cfg.wrt = some w → w = [.x, .y, .z, .vx, .vy, .vz] ++
    (if cfg.dyn = .stark then [.m, .par 2, .par 3, .par 4] else [])
  dim : cfg.init.length = if cfg.dyn = .stark then 7 else 6

/-- C39: whatever the threads and the schedule, every finished request returned an integrator
built for exactly the requested problem and tolerance, or threw because heyoka refuses to build
that one. -/
theorem C39_request {V : Type} {mk : Config → Option V} (hmk : RejectsNan mk)
    {P : Req TaMap Dbl → Prop} {s : St TaMap TaMutex Dbl V} (h : Reach (taSys mk) P s)
    (c : TaMap) (tol : Dbl) (res : Result V) (hr : (.get c tol, res) ∈ s.hist) :
    ∃ cfg, Expected c tol cfg ∧
      ((∃ v, res = .val v ∧ mk cfg = some v) ∨ (res = .exc ∧ mk cfg = none)) := by
  refine ⟨taConfig c tol, ?_, lookup_result (taSys_good hmk) h hr⟩
  cases c <;> exact ⟨rfl, by simp [taConfig], by simp [taConfig], by simp [taConfig], by simp [taConfig]⟩

/-- C39: two requests that return the same problem and tolerance return the same integrator,
however many threads asked first. -/
theorem C39_same {V : Type} {mk : Config → Option V} (hmk : RejectsNan mk)
    {P : Req TaMap Dbl → Prop} {s : St TaMap TaMutex Dbl V} (h : Reach (taSys mk) P s)
    (c : TaMap) (tol : Dbl) (v w : V) (hv : (.get c tol, .val v) ∈ s.hist)
    (hw : (.get c tol, .val w) ∈ s.hist) : v = w := by
  rcases lookup_result (taSys_good hmk) h hv with ⟨_, e, h1⟩ | ⟨e, _⟩
  · rcases lookup_result (taSys_good hmk) h hw with ⟨_, e', h2⟩ | ⟨e', _⟩
    · cases e; cases e'
      exact Option.some.inj (h1.symm.trans h2)
    · cases e'
  · cases e

/-- C39: when no call is under way, each map holds as many entries as distinct tolerances were
served. -/
theorem C39_size {V : Type} {mk : Config → Option V} (hmk : RejectsNan mk)
    {P : Req TaMap Dbl → Prop} {s : St TaMap TaMutex Dbl V} (h : Reach (taSys mk) P s)
    (hi : ∀ t, s.thr t = none) (c : TaMap) (ks : List Dbl) (hks : ks.Nodup)
    (hmem : ∀ tol, tol ∈ ks ↔ ∃ v, (Req.get c tol, Result.val v) ∈ s.hist) :
    (s.cache c).length = ks.length := by
  obtain ⟨ls, h1, h2, h3⟩ := idle_size (taSys_good hmk) h hi c
  rw [← h2]
  exact ((List.perm_ext_iff_of_nodup h1 hks).2 fun k => (h3 k).trans (hmem k).symm).length_eq

/-- C39: the sizes reported by `get_ta_stark_cache_dim` and `get_ta_cr3bp_cache_dim` are the
numbers of distinct tolerances served by the calls that returned before, under every
schedule. -/
theorem C39_dim {V : Type} {mk : Config → Option V} (hmk : RejectsNan mk)
    {P : Req TaMap Dbl → Prop} {s : St TaMap TaMutex Dbl V} (h : Reach (taSys mk) P s)
    (c : TaMap) (hc : c = .stark ∨ c = .cr3bp) (h1 h2 : List (Req TaMap Dbl × Result V)) (n : ℕ)
    (e : s.hist = h1 ++ (.dim c, .size n) :: h2) (ks : List Dbl) (hks : ks.Nodup)
    (hmem : ∀ tol, tol ∈ ks ↔ ∃ v, (Req.get c tol, Result.val v) ∈ h2) : n = ks.length := by
  obtain ⟨ls, l1, l2, l3⟩ := size_result (taSys_good hmk) h c (by rcases hc with rfl | rfl <;> rfl) h1 h2 n e
  rw [← l2]
  exact ((List.perm_ext_iff_of_nodup l1 hks).2 fun k => (l3 k).trans (hmem k).symm).length_eq

/-- C39: an integrator once handed out stays in its map for good, unchanged and at the same
place, so the `const` reference stays good. -/
theorem C39_stable {V : Type} {mk : Config → Option V} (hmk : RejectsNan mk)
    {P : Req TaMap Dbl → Prop} {s s' : St TaMap TaMutex Dbl V} (h : Reach (taSys mk) P s)
    (hs : Relation.ReflTransGen (Step (taSys mk) P) s s') (c : TaMap) (tol : Dbl) (v : V)
    (hv : (.get c tol, .val v) ∈ s.hist) :
    ∃ i : ℕ, (s.cache c)[i]? = some (tol, v) ∧ (s'.cache c)[i]? = some (tol, v) := by
  obtain ⟨i, hi⟩ := List.mem_iff_getElem?.1 ((inv_reach (taSys_good hmk) h).done _ hv)
  obtain ⟨l, hl⟩ := stable hs c
  refine ⟨i, hi, ?_⟩
  rw [← hl, List.getElem?_append_left, hi]
  exact (List.getElem?_eq_some_iff.1 hi).1

/-- A NaN tolerance is never found, whatever the map holds: the hypothesis that heyoka rejects
it is needed. -/
theorem nan_not_found {V : Type} (mk : Config → Option V) (l : List (Dbl × V)) :
    (taSys mk).find l .nan = none := by
  unfold Sys.find
  rw [Option.map_eq_none_iff, List.find?_eq_none]
  rintro ⟨k, v⟩ _
  cases k <;> simp [taSys, Dbl.beq]

/-! ### Data races -/

/-- C40 (partial): no data race on the two maps without variational equations, and none at all
as long as nobody asks for the size of a variational map.  The full claim (no restriction on
the calls) is false, see `C40_race`. -/
theorem C40_race_free_partial {V : Type} (mk : Config → Option V) :
    (∀ s, Reach (taSys mk) (fun _ => True) s → ¬ Race s .stark ∧ ¬ Race s .cr3bp) ∧
    (∀ s, Reach (taSys mk) (fun r => r ≠ .dim .starkVar ∧ r ≠ .dim .cr3bpVar) s →
      ∀ c, ¬ Race s c) := by
  refine ⟨fun s h => ⟨no_race h _ fun _ => rfl, no_race h _ fun _ => rfl⟩, fun s h c => ?_⟩
  refine no_race h c fun hp => ?_
  cases c with
  | stark => rfl
  | starkVar => exact absurd rfl hp.1
  | cr3bp => rfl
  | cr3bpVar => exact absurd rfl hp.2

/-- C40: the threads never block one another for good, under any schedule. -/
theorem C40_progress {V : Type} (mk : Config → Option V) {P : Req TaMap Dbl → Prop}
    {s : St TaMap TaMutex Dbl V} (h : Reach (taSys mk) P s) (hn : ∃ t, s.thr t ≠ none) :
    ∃ s', Step (taSys mk) (fun _ => False) s s' :=
  progress h (by unfold Idle; push Not; exact hn)

/-- Appending one step to an execution. -/
theorem Reach.step {C M K V : Type} [DecidableEq C] [DecidableEq M] {S : Sys C M K V}
    {P : Req C K → Prop} {s s' : St C M K V} (h : Reach S P s) (st : Step S P s s') :
    Reach S P s' := Relation.ReflTransGen.tail h st

/-- C40 (negation): `get_ta_stark_var_cache_dim` and `get_ta_cr3bp_var_cache_dim` lock the wrong
mutex.  One thread that asks for an integrator not yet built and another that asks for the size
of the same map are enough for a data race, whenever heyoka builds that integrator. -/
theorem C40_race {V : Type} (mk : Config → Option V) (c : TaMap) (hc : c = .starkVar ∨ c = .cr3bpVar)
    (tol : Dbl) (v : V) (hv : mk (taConfig c tol) = some v) :
    ∃ s, Reach (taSys mk) (fun _ => True) s ∧ Race s c := by
  have h0 : Reach (taSys mk) (fun _ => True) St.init := .refl
  have h1 := h0.step (.call _ 0 (.get c tol) rfl trivial)
  have h2 := h1.step (.acquire _ 0 (.get c tol) (by simp) rfl)
  have h3 := h2.step (.miss _ 0 c tol (by simp) rfl)
  have h4 := h3.step (.built _ 0 c tol v (by simp) hv)
  have h5 := h4.step (.call _ 1 (.dim c) (by simp [St.init]) trivial)
  have h6 := h5.step (.acquire _ 1 (.dim c) (by simp) (by
    rcases hc with rfl | rfl <;> simp [St.init, Sys.lock, taSys, taGetLock, taDimLock]))
  refine ⟨_, h6, 0, 1, by decide, ⟨tol, v, ?_⟩, .inl (.inr ?_)⟩
  · simp
  · simp

/-- C39/C40 on a concrete execution: two threads ask for the same tolerance at the same time,
the second waits for the mutex and finds the entry of the first; a third call then reports one
entry. -/
theorem C39_example (mk : Config → Option ℕ) (hmk : mk (taConfig .stark 1) = some 7) :
    ∃ s, Reach (taSys mk) (fun _ => True) s ∧ (∀ t, s.thr t = none) ∧
      s.hist = [(.dim .stark, .size 1), (.get .stark 1, .val 7), (.get .stark 1, .val 7)] ∧
      s.cache .stark = [(1, 7)] := by
  have h0 : Reach (taSys mk) (fun _ => True) St.init := .refl
  have h1 := h0.step (.call _ 0 (.get .stark 1) rfl trivial)
  have h2 := h1.step (.acquire _ 0 (.get .stark 1) (by simp) rfl)
  have h3 := h2.step (.call _ 1 (.get .stark 1) (by simp [St.init]) trivial)
  have h4 := h3.step (.miss _ 0 .stark 1 (by simp) rfl)
  have h5 := h4.step (.built _ 0 TaMap.stark 1 7 (by simp) (by exact hmk))
  have h6 := h5.step (.insert _ 0 .stark 1 7 (by simp))
  have h7 := h6.step (.release _ 0 (.get .stark 1) (.val 7) (by simp [Sys.insert, Sys.find, St.init]))
  have h8 := h7.step (.acquire _ 1 (.get .stark 1) (by simp) (by simp))
  have h9 := h8.step (.hit _ 1 .stark 1 7 (by simp) (by
    simp [Sys.insert, Sys.find, St.init, taSys, Dbl.beq]))
  have h10 := h9.step (.release _ 1 (.get .stark 1) (.val 7) (by simp))
  have h11 := h10.step (.call _ 0 (.dim .stark) (by simp) trivial)
  have h12 := h11.step (.acquire _ 0 (.dim .stark) (by simp) (by simp [Sys.lock, taSys, taGetLock, taDimLock]))
  have h13 := h12.step (.size _ 0 .stark (by simp))
  have h14 := h13.step (.release _ 0 (.dim .stark) (.size 1) (by
    simp [Sys.insert, Sys.find, St.init, taSys]))
  refine ⟨_, h14, ?_, ?_, ?_⟩
  · intro t
    by_cases e0 : t = 0
    · simp [e0]
    · by_cases e1 : t = 1
      · simp [e1]
      · simp [e0, e1, St.init]
  · simp [St.init]
  · simp [Sys.insert, Sys.find, St.init, taSys]

end Kep3.Cache
