/-
The compilation caches of kep3, as an interleaving of threads.

`src/ta/stark.cpp`, `src/ta/cr3bp.cpp` and `src/udpla/vsop2013.cpp` all protect a
`std::unordered_map` by a `std::mutex` in the same way:

    lock;  find;  hit: return the entry;  miss: build, insert, return;  unlock

This file holds the common small-step semantics.  Any number of threads, any number
of calls, any schedule.  Which caches and mutexes there are, which mutex a function
takes and what it builds are parameters (`Sys`), filled in by `Cache/Ta.lean` and
`Cache/Vsop.lean`.

Simplifications: acquiring a mutex is one atomic step; an exception during the build
unwinds the `lock_guard`; the stored objects are immutable (the functions hand out
`const` references or copies); a hash map is a list of entries looked up by `==` on the
key (so a NaN key is never found).  Memory exhaustion is not modelled.  Data races are
judged by `Race`: two threads both about to touch the same map, one of them to modify it.
-/
import Mathlib.Data.List.Basic
import Mathlib.Data.List.Nodup
import Mathlib.Logic.Function.Basic
import Mathlib.Logic.Relation

namespace Kep3.Cache

/-- The parameters of a family of caches: `C` the maps, `M` the mutexes, `K` the keys
and `V` the stored objects.  (Pattern of src/ta/stark.cpp 72-132.) -/
structure Sys (C M K V : Type) where
  /-- the mutex taken by the lookup function of a map -/
  getLock : C → M
  /-- the mutex taken by the function that reports the size of a map -/
  dimLock : C → M
  /-- `==` on keys -/
  eq : K → K → Bool
  /-- building a new object; `none` when the construction throws -/
  build : C → K → Option V
  /-- the key under which the new object is inserted -/
  slot : C → K → K

/-- A call of one of the public functions. -/
inductive Req (C K : Type)
  | get (c : C) (k : K)
  | dim (c : C)
  deriving DecidableEq

/-- How a call ended. -/
inductive Result (V : Type)
  | val (v : V)
  | size (n : ℕ)
  | exc

/-- Where a call stands. -/
inductive Pc (V : Type)
  /-- waiting for the mutex -/
  | start
  /-- mutex held, about to read the map (`find` or `size`) -/
  | locked
  /-- the key was not found, about to build -/
  | build
  /-- object built, about to insert it -/
  | insert (v : V)
  /-- about to release the mutex and return -/
  | leave (r : Result V)

variable {C M K V : Type}

/-- The mutex a call takes. -/
def Sys.lock (S : Sys C M K V) : Req C K → M
  | .get c _ => S.getLock c
  | .dim c => S.dimLock c

/-- `unordered_map::find`. -/
def Sys.find (S : Sys C M K V) (l : List (K × V)) (k : K) : Option V :=
  (l.find? fun e => S.eq e.1 k).map Prod.snd

/-- `unordered_map::insert(...).first->second` together with the new map: an existing
entry is kept. -/
def Sys.insert (S : Sys C M K V) (l : List (K × V)) (k : K) (v : V) : List (K × V) × V :=
  match S.find l k with
  | some w => (l, w)
  | none => (l ++ [(k, v)], v)

/-- The shared state: the maps, the mutexes, the calls under way (at most one per thread)
and the list of finished calls, latest first. -/
structure St (C M K V : Type) where
  cache : C → List (K × V)
  owner : M → Option ℕ
  thr : ℕ → Option (Req C K × Pc V)
  hist : List (Req C K × Result V)

/-- Program start. -/
def St.init : St C M K V := ⟨fun _ => [], fun _ => none, fun _ => none, []⟩

variable [DecidableEq C] [DecidableEq M]

/-- One step of one thread.  `P` restricts the calls that are made. -/
inductive Step (S : Sys C M K V) (P : Req C K → Prop) : St C M K V → St C M K V → Prop
  | call (s t r) (ht : s.thr t = none) (hP : P r) :
      Step S P s { s with thr := Function.update s.thr t (some (r, .start)) }
  | acquire (s t r) (ht : s.thr t = some (r, .start)) (ho : s.owner (S.lock r) = none) :
      Step S P s { s with owner := Function.update s.owner (S.lock r) (some t)
                          thr := Function.update s.thr t (some (r, .locked)) }
  | hit (s t c k v) (ht : s.thr t = some (.get c k, .locked)) (hf : S.find (s.cache c) k = some v) :
      Step S P s { s with thr := Function.update s.thr t (some (.get c k, .leave (.val v))) }
  | miss (s t c k) (ht : s.thr t = some (.get c k, .locked)) (hf : S.find (s.cache c) k = none) :
      Step S P s { s with thr := Function.update s.thr t (some (.get c k, .build)) }
  | built (s t c k v) (ht : s.thr t = some (.get c k, .build)) (hb : S.build c k = some v) :
      Step S P s { s with thr := Function.update s.thr t (some (.get c k, .insert v)) }
  | failed (s t c k) (ht : s.thr t = some (.get c k, .build)) (hb : S.build c k = none) :
      Step S P s { s with thr := Function.update s.thr t (some (.get c k, .leave .exc)) }
  | insert (s t c k v) (ht : s.thr t = some (.get c k, .insert v)) :
      Step S P s { s with
        cache := Function.update s.cache c (S.insert (s.cache c) (S.slot c k) v).1
        thr := Function.update s.thr t
          (some (.get c k, .leave (.val (S.insert (s.cache c) (S.slot c k) v).2))) }
  | size (s t c) (ht : s.thr t = some (.dim c, .locked)) :
      Step S P s { s with
        thr := Function.update s.thr t (some (.dim c, .leave (.size (s.cache c).length))) }
  | release (s t r res) (ht : s.thr t = some (r, .leave res)) :
      Step S P s { s with owner := Function.update s.owner (S.lock r) none
                          thr := Function.update s.thr t none
                          hist := (r, res) :: s.hist }

/-- States reachable from program start when only calls in `P` are made. -/
def Reach (S : Sys C M K V) (P : Req C K → Prop) (s : St C M K V) : Prop :=
  Relation.ReflTransGen (Step S P) St.init s

/-- Thread `t` is about to read map `c`. -/
def Reads (s : St C M K V) (t : ℕ) (c : C) : Prop :=
  (∃ k, s.thr t = some (.get c k, .locked)) ∨ s.thr t = some (.dim c, .locked)

/-- Thread `t` is about to modify map `c`. -/
def Writes (s : St C M K V) (t : ℕ) (c : C) : Prop :=
  ∃ k v, s.thr t = some (.get c k, .insert v)

/-- A data race on map `c`: two threads may touch the map next, in either order, and one
of the two accesses modifies it. -/
def Race (s : St C M K V) (c : C) : Prop :=
  ∃ t u, t ≠ u ∧ Writes s t c ∧ (Reads s u c ∨ Writes s u c)

/-- No call is under way. -/
def Idle (s : St C M K V) : Prop := ∀ t, s.thr t = none

/-! ### Mutual exclusion -/

/-- A call that is past the acquisition of its mutex. -/
def Inside (S : Sys C M K V) (m : M) : Option (Req C K × Pc V) → Prop
  | none => False
  | some (_, .start) => False
  | some (r, _) => S.lock r = m

/-- A mutex is owned by exactly the thread that is inside. -/
def Mutex (S : Sys C M K V) (s : St C M K V) : Prop :=
  ∀ m t, s.owner m = some t ↔ Inside S m (s.thr t)

theorem reach_induction {S : Sys C M K V} {P : Req C K → Prop} {Q : St C M K V → Prop}
    (h0 : Q St.init) (hs : ∀ s s', Q s → Step S P s s' → Q s') {s} (h : Reach S P s) : Q s := by
  unfold Reach at h
  induction h with
  | refl => exact h0
  | tail _ st ih => exact hs _ _ ih st

private theorem mutex_upd {S : Sys C M K V} {s : St C M K V} (h : Mutex S s) {t : ℕ}
    {x : Option (Req C K × Pc V)} (hx : ∀ m, Inside S m x ↔ Inside S m (s.thr t)) :
    ∀ m u, s.owner m = some u ↔ Inside S m (Function.update s.thr t x u) := by
  intro m u
  by_cases e : u = t
  · subst e; rw [Function.update_self, hx, h m u]
  · rw [Function.update_of_ne e, h m u]

theorem mutex_step {S : Sys C M K V} {P : Req C K → Prop} (s s' : St C M K V) (h : Mutex S s)
    (st : Step S P s s') : Mutex S s' := by
  cases st with
  | call t r ht hP => exact mutex_upd h (by simp [ht, Inside])
  | acquire t r ht ho =>
    intro m u
    by_cases em : m = S.lock r
    · subst em
      by_cases e : u = t
      · subst e; simp [Inside]
      · have := h (S.lock r) u
        rw [ho] at this
        simp only [Function.update_self, Function.update_of_ne e, Option.some.injEq]
        constructor
        · intro e'; exact absurd e'.symm e
        · intro hi; exact absurd (this.2 hi) (by simp)
    · by_cases e : u = t
      · subst e
        simp only [Function.update_self, Function.update_of_ne em, Inside]
        rw [h m u, ht]
        simp only [Inside, false_iff]
        exact fun e' => em e'.symm
      · simp only [Function.update_of_ne e, Function.update_of_ne em]
        exact h m u
  | hit t c k v ht hf => exact mutex_upd h (by simp [ht, Inside])
  | miss t c k ht hf => exact mutex_upd h (by simp [ht, Inside])
  | built t c k v ht hb => exact mutex_upd h (by simp [ht, Inside])
  | failed t c k ht hb => exact mutex_upd h (by simp [ht, Inside])
  | insert t c k v ht => exact mutex_upd h (by simp [ht, Inside])
  | size t c ht => exact mutex_upd h (by simp [ht, Inside])
  | release t r res ht =>
    have hown : s.owner (S.lock r) = some t := (h _ _).2 (by simp [ht, Inside])
    intro m u
    by_cases em : m = S.lock r
    · subst em
      by_cases e : u = t
      · subst e; simp [Inside]
      · simp only [Function.update_self, Function.update_of_ne e]
        constructor
        · intro e'; simp at e'
        · intro hi
          have := (h _ _).2 hi
          rw [hown] at this
          exact absurd (Option.some.inj this).symm e
    · by_cases e : u = t
      · subst e
        simp only [Function.update_self, Function.update_of_ne em, Inside, iff_false]
        intro ho
        have := (h _ _).1 ho
        rw [ht] at this
        exact em (by simpa [Inside] using this.symm)
      · simp only [Function.update_of_ne e, Function.update_of_ne em]
        exact h m u

theorem mutex_reach {S : Sys C M K V} {P : Req C K → Prop} {s : St C M K V} (h : Reach S P s) :
    Mutex S s :=
  reach_induction (by intro m t; simp [St.init, Inside]) mutex_step h

/-- Two threads are never inside the same mutex. -/
theorem exclusive {S : Sys C M K V} {s : St C M K V} (h : Mutex S s) {m : M} {t u : ℕ}
    (ht : Inside S m (s.thr t)) (hu : Inside S m (s.thr u)) : t = u := by
  have a := (h m t).2 ht
  have b := (h m u).2 hu
  rw [a] at b
  exact Option.some.inj b

/-- A call under way satisfies the restriction on calls. -/
theorem calls_reach {S : Sys C M K V} {P : Req C K → Prop} {s : St C M K V} (h : Reach S P s) :
    ∀ t r pc, s.thr t = some (r, pc) → P r := by
  refine reach_induction (Q := fun s => ∀ t r pc, s.thr t = some (r, pc) → P r)
    (by simp [St.init]) ?_ h
  intro s s' ih st u r pc hu
  have key : ∀ (t : ℕ) (x : Req C K × Pc V), P x.1 →
      Function.update s.thr t (some x) u = some (r, pc) → P r := by
    intro t x hx e
    by_cases eu : u = t
    · subst eu; rw [Function.update_self] at e; cases e; exact hx
    · rw [Function.update_of_ne eu] at e; exact ih _ _ _ e
  cases st with
  | call t r hn hP => exact key t _ hP hu
  | acquire t r ht ho => exact key t _ (ih _ _ _ ht) hu
  | hit t c k v ht hf => exact key t _ (ih _ _ _ ht) hu
  | miss t c k ht hf => exact key t _ (ih _ _ _ ht) hu
  | built t c k v ht hb => exact key t _ (ih _ _ _ ht) hu
  | failed t c k ht hb => exact key t _ (ih _ _ _ ht) hu
  | insert t c k v ht => exact key t _ (ih _ _ _ ht) hu
  | size t c ht => exact key t _ (ih _ _ _ ht) hu
  | release t r res ht =>
    by_cases eu : u = t
    · subst eu; simp at hu
    · simp only [Function.update_of_ne eu] at hu; exact ih _ _ _ hu

/-- No data race on a map if the calls made take one and the same mutex for it. -/
theorem no_race {S : Sys C M K V} {P : Req C K → Prop} {s : St C M K V} (h : Reach S P s) (c : C)
    (hl : P (.dim c) → S.dimLock c = S.getLock c) : ¬ Race s c := by
  have hm := mutex_reach h
  rintro ⟨t, u, hne, ⟨k, v, ht⟩, hu⟩
  have it : Inside S (S.getLock c) (s.thr t) := by simp [ht, Inside, Sys.lock]
  refine hne (exclusive hm it ?_)
  rcases hu with (⟨k', hu⟩ | hu) | ⟨k', v', hu⟩
  · simp [hu, Inside, Sys.lock]
  · have := hl (calls_reach h _ _ _ hu)
    simp [hu, Inside, Sys.lock, this]
  · simp [hu, Inside, Sys.lock]

/-- No deadlock: as long as some call is under way, some thread can take a step of a call
already under way (no new call is needed). -/
theorem progress {S : Sys C M K V} {P : Req C K → Prop} {s : St C M K V} (h : Reach S P s)
    (hn : ¬ Idle s) : ∃ s', Step S (fun _ => False) s s' := by
  have hm := mutex_reach h
  have inside : ∀ t r pc, s.thr t = some (r, pc) → (∃ m, Inside S m (s.thr t)) →
      ∃ s', Step S (fun _ => False) s s' := by
    intro t r pc ht ⟨m, hi⟩
    -- `dim` calls never build: their program counter is `locked` or `leave`
    have hdim : ∀ c, r = .dim c → pc = .locked ∨ (∃ q, pc = .leave q) ∨ pc = .start := by
      intro c hc
      subst hc
      refine reach_induction (S := S) (P := P)
        (Q := fun s => ∀ t pc c, s.thr t = some (.dim c, pc) →
          pc = .locked ∨ (∃ q, pc = .leave q) ∨ pc = .start) (by simp [St.init]) ?_ h t pc c ht
      intro s s' ih st u pc c hu
      have key : ∀ (t : ℕ) (x : Req C K × Pc V),
          (x = (.dim c, pc) → pc = .locked ∨ (∃ q, pc = .leave q) ∨ pc = .start) →
          Function.update s.thr t (some x) u = some (.dim c, pc) →
          pc = .locked ∨ (∃ q, pc = .leave q) ∨ pc = .start := by
        intro t x hx e
        by_cases eu : u = t
        · subst eu; rw [Function.update_self] at e; cases e; exact hx rfl
        · rw [Function.update_of_ne eu] at e; exact ih _ _ _ e
      cases st with
      | call t r hn hP => exact key t _ (by intro e; cases e; simp) hu
      | acquire t r ht ho => exact key t _ (by intro e; cases e; simp) hu
      | hit t c k v ht hf => exact key t _ (by intro e; cases e) hu
      | miss t c k ht hf => exact key t _ (by intro e; cases e) hu
      | built t c k v ht hb => exact key t _ (by intro e; cases e) hu
      | failed t c k ht hb => exact key t _ (by intro e; cases e) hu
      | insert t c k v ht => exact key t _ (by intro e; cases e) hu
      | size t c ht => exact key t _ (by intro e; cases e; simp) hu
      | release t r res ht =>
        by_cases eu : u = t
        · subst eu; simp at hu
        · simp only [Function.update_of_ne eu] at hu; exact ih _ _ _ hu
    cases pc with
    | start => simp [ht, Inside] at hi
    | locked =>
      cases r with
      | get c k =>
        cases hf : S.find (s.cache c) k with
        | none => exact ⟨_, .miss s t c k ht hf⟩
        | some v => exact ⟨_, .hit s t c k v ht hf⟩
      | dim c => exact ⟨_, .size s t c ht⟩
    | build =>
      cases r with
      | get c k =>
        cases hb : S.build c k with
        | none => exact ⟨_, .failed s t c k ht hb⟩
        | some v => exact ⟨_, .built s t c k v ht hb⟩
      | dim c => rcases hdim c rfl with e | ⟨q, e⟩ | e <;> cases e
    | insert v =>
      cases r with
      | get c k => exact ⟨_, .insert s t c k v ht⟩
      | dim c => rcases hdim c rfl with e | ⟨q, e⟩ | e <;> cases e
    | leave q => exact ⟨_, .release s t r q ht⟩
  unfold Idle at hn
  push Not at hn
  obtain ⟨t, ht⟩ := hn
  obtain ⟨⟨r, pc⟩, ht⟩ := Option.ne_none_iff_exists'.1 ht
  by_cases hi : ∃ m, Inside S m (s.thr t)
  · exact inside t r pc ht hi
  · have hpc : pc = .start := by
      cases pc with
      | start => rfl
      | _ => exact absurd ⟨S.lock r, by simp [ht, Inside]⟩ hi
    subst hpc
    cases ho : s.owner (S.lock r) with
    | none => exact ⟨_, .acquire s t r ht ho⟩
    | some u =>
      have hu := (hm _ _).1 ho
      cases hx : s.thr u with
      | none => rw [hx] at hu; exact absurd hu (by simp [Inside])
      | some x => exact inside u x.1 x.2 hx ⟨_, hu⟩

/-! ### Contents of the maps -/

/-- What is known about one call under way. -/
def CallOk (S : Sys C M K V) (s : St C M K V) : Req C K × Pc V → Prop
  | (.get c k, .build) => S.find (s.cache c) k = none
  | (.get c k, .insert v) => S.find (s.cache c) k = none ∧ S.build c k = some v
  | (.get c k, .leave (.val v)) => (k, v) ∈ s.cache c
  | (.get c k, .leave .exc) => S.build c k = none
  | (.get _ _, .leave (.size _)) => False
  | (.dim _, .leave (.size _)) => True
  | (.dim _, .leave _) => False
  | (.dim _, .build) => False
  | (.dim _, .insert _) => False
  | _ => True

/-- What is known about a finished call. -/
def DoneOk (S : Sys C M K V) (s : St C M K V) : Req C K × Result V → Prop
  | (.get c k, .val v) => (k, v) ∈ s.cache c
  | (.get c k, .exc) => S.build c k = none
  | (.get _ _, .size _) => False
  | (.dim _, .size _) => True
  | (.dim _, _) => False

/-- A lookup that returned `v` for key `k` of map `c` is finished or about to return. -/
def Served (s : St C M K V) (c : C) (k : K) (v : V) : Prop :=
  (.get c k, .val v) ∈ s.hist ∨ ∃ t, s.thr t = some (.get c k, .leave (.val v))

/-- The invariant of the maps. -/
structure Inv (S : Sys C M K V) (s : St C M K V) : Prop where
  mutex : Mutex S s
  built : ∀ c k v, (k, v) ∈ s.cache c → S.build c k = some v
  nodup : ∀ c, ((s.cache c).map Prod.fst).Nodup
  calls : ∀ t x, s.thr t = some x → CallOk S s x
  done : ∀ x ∈ s.hist, DoneOk S s x
  served : ∀ c k v, (k, v) ∈ s.cache c → Served s c k v

/-- What the caches are assumed to do with keys: `==` means equality, keys that can be
built are equal to themselves (no NaN), and the object is stored under the key asked for. -/
structure Sys.Good (S : Sys C M K V) : Prop where
  eq_imp : ∀ a b, S.eq a b = true → a = b
  refl : ∀ c k, S.build c k ≠ none → S.eq k k = true
  slot : ∀ c k, S.slot c k = k

theorem find_some {S : Sys C M K V} (hS : S.Good) {l : List (K × V)} {k : K} {v : V}
    (h : S.find l k = some v) : (k, v) ∈ l := by
  unfold Sys.find at h
  obtain ⟨e, he, rfl⟩ := Option.map_eq_some_iff.1 h
  have h1 := List.mem_of_find?_eq_some he
  have h2 := hS.eq_imp _ _ (by simpa using List.find?_some he)
  rw [← h2]; exact h1

theorem find_none {S : Sys C M K V} (hS : S.Good) {l : List (K × V)} {c : C} {k : K}
    (hb : S.build c k ≠ none) (h : S.find l k = none) : k ∉ l.map Prod.fst := by
  unfold Sys.find at h
  rw [Option.map_eq_none_iff, List.find?_eq_none] at h
  intro hk
  obtain ⟨e, he, rfl⟩ := List.mem_map.1 hk
  exact absurd (hS.refl c _ hb) (by simpa using h e he)

/-- A step that changes neither maps nor finished calls. -/
private theorem inv_upd {S : Sys C M K V} {s : St C M K V} (h : Inv S s) {t : ℕ}
    {x : Req C K × Pc V} {o : M → Option ℕ} (hx : CallOk S s x)
    (hm : Mutex S { s with owner := o, thr := Function.update s.thr t (some x) })
    (hk : ∀ c k v, s.thr t ≠ some (.get c k, .leave (.val v))) :
    Inv S { s with owner := o, thr := Function.update s.thr t (some x) } where
  mutex := hm
  built := h.built
  nodup := h.nodup
  done := h.done
  calls u y hu := by
    have hc : ∀ z, CallOk S s z → CallOk S { s with owner := o, thr := Function.update s.thr t (some x) } z := by
      intro z hz
      exact hz
    by_cases e : u = t
    · subst e; simp only [Function.update_self, Option.some.injEq] at hu; subst hu; exact hc _ hx
    · simp only [Function.update_of_ne e] at hu; exact hc _ (h.calls _ _ hu)
  served c k v hv := by
    rcases h.served c k v hv with h1 | ⟨u, hu⟩
    · exact .inl h1
    · refine .inr ⟨u, ?_⟩
      have : u ≠ t := by rintro rfl; exact hk _ _ _ hu
      simpa [Function.update_of_ne this] using hu

theorem inv_step {S : Sys C M K V} (hS : S.Good) {P : Req C K → Prop} (s s' : St C M K V)
    (h : Inv S s) (st : Step S P s s') : Inv S s' := by
  have hm' := mutex_step s s' h.mutex st
  cases st with
  | call t r ht hP => exact inv_upd h (by cases r <;> simp [CallOk]) hm' (by simp [ht])
  | acquire t r ht ho => exact inv_upd h (by cases r <;> simp [CallOk]) hm' (by simp [ht])
  | hit t c k v ht hf =>
    exact inv_upd h (by simpa [CallOk] using find_some hS hf) hm' (by simp [ht])
  | miss t c k ht hf => exact inv_upd h (by simpa [CallOk] using hf) hm' (by simp [ht])
  | built t c k v ht hb =>
    exact inv_upd h (by have := h.calls _ _ ht; exact ⟨this, hb⟩) hm' (by simp [ht])
  | failed t c k ht hb => exact inv_upd h (by simpa [CallOk] using hb) hm' (by simp [ht])
  | size t c ht => exact inv_upd h (by simp [CallOk]) hm' (by simp [ht])
  | release t r res ht =>
    refine ⟨hm', h.built, h.nodup, ?_, ?_, ?_⟩
    · intro u x hu
      by_cases e : u = t
      · subst e; simp at hu
      · simp only [Function.update_of_ne e] at hu; exact h.calls _ _ hu
    · intro x hx
      rcases List.mem_cons.1 hx with rfl | hx
      · have := h.calls _ _ ht
        cases r <;> cases res <;> simpa [CallOk, DoneOk] using this
      · exact h.done x hx
    · intro c k v hv
      rcases h.served c k v hv with h1 | ⟨u, hu⟩
      · exact .inl (List.mem_cons_of_mem _ h1)
      · by_cases e : u = t
        · subst e
          rw [ht] at hu
          cases hu
          exact .inl List.mem_cons_self
        · exact .inr ⟨u, by simpa [Function.update_of_ne e] using hu⟩
  | insert t c k v ht =>
    obtain ⟨hf, hb⟩ := h.calls _ _ ht
    have hins : S.insert (s.cache c) (S.slot c k) v = (s.cache c ++ [(k, v)], v) := by
      unfold Sys.insert; rw [hS.slot, hf]
    rw [hins] at hm' ⊢
    have hsub : ∀ d y, y ∈ s.cache d → y ∈ Function.update s.cache c (s.cache c ++ [(k, v)]) d := by
      intro d y hy
      by_cases e : d = c
      · subst e; simp [hy]
      · simpa [Function.update_of_ne e] using hy
    have hmem : ∀ d y, y ∈ Function.update s.cache c (s.cache c ++ [(k, v)]) d →
        y ∈ s.cache d ∨ (d = c ∧ y = (k, v)) := by
      intro d y hy
      by_cases e : d = c
      · subst e
        simp only [Function.update_self, List.mem_append, List.mem_singleton] at hy
        rcases hy with hy | hy
        · exact .inl hy
        · exact .inr ⟨rfl, hy⟩
      · exact .inl (by simpa [Function.update_of_ne e] using hy)
    refine ⟨hm', ?_, ?_, ?_, ?_, ?_⟩
    · intro d k' v' hy
      rcases hmem d _ hy with hy | ⟨rfl, e⟩
      · exact h.built _ _ _ hy
      · cases e; exact hb
    · intro d
      by_cases e : d = c
      · subst e
        simp only [Function.update_self, List.map_append, List.map_cons, List.map_nil]
        rw [List.nodup_append]
        refine ⟨h.nodup _, by simp, ?_⟩
        intro a ha b hb' hab
        rw [List.mem_singleton] at hb'
        subst hb' hab
        exact find_none hS (by rw [hb]; simp) hf ha
      · simpa [Function.update_of_ne e] using h.nodup d
    · intro u x hu
      by_cases e : u = t
      · subst e
        simp only [Function.update_self, Option.some.injEq] at hu
        subst hu
        simp [CallOk]
      · simp only [Function.update_of_ne e] at hu
        have hx := h.calls _ _ hu
        -- nobody else is between its lookup and its insertion on this map
        have hexcl : ∀ k', (∃ q, x = (.get c k', q) ∧ Inside S (S.getLock c) (some x)) → False := by
          rintro k' ⟨q, rfl, hi⟩
          refine e (exclusive h.mutex (m := S.getLock c) ?_ ?_)
          · rw [hu]; exact hi
          · rw [ht]; simp [Inside, Sys.lock]
        obtain ⟨r, pc⟩ := x
        cases r with
        | dim d => cases pc with
          | leave q => cases q <;> simpa [CallOk] using hx
          | _ => simpa [CallOk] using hx
        | get d k' =>
          cases pc with
          | build =>
            by_cases ed : d = c
            · subst ed; exact (hexcl k' ⟨_, rfl, by simp [Inside, Sys.lock]⟩).elim
            · simpa [CallOk, Function.update_of_ne ed] using hx
          | insert w =>
            by_cases ed : d = c
            · subst ed; exact (hexcl k' ⟨_, rfl, by simp [Inside, Sys.lock]⟩).elim
            · simpa [CallOk, Function.update_of_ne ed] using hx
          | leave q =>
            cases q with
            | val w => exact hsub _ _ hx
            | _ => simpa [CallOk] using hx
          | _ => simp [CallOk]
    · intro x hx
      have := h.done x hx
      obtain ⟨r, res⟩ := x
      cases r with
      | dim d => cases res <;> simpa [DoneOk] using this
      | get d k' =>
        cases res with
        | val w => exact hsub _ _ this
        | _ => simpa [DoneOk] using this
    · intro d k' v' hy
      rcases hmem d _ hy with hy | ⟨rfl, e⟩
      · rcases h.served _ _ _ hy with h1 | ⟨u, hu⟩
        · exact .inl h1
        · refine .inr ⟨u, ?_⟩
          have : u ≠ t := by rintro rfl; rw [ht] at hu; cases hu
          simpa [Function.update_of_ne this] using hu
      · cases e; exact .inr ⟨t, by simp⟩

theorem inv_reach {S : Sys C M K V} (hS : S.Good) {P : Req C K → Prop} {s : St C M K V}
    (h : Reach S P s) : Inv S s :=
  reach_induction ⟨by intro m t; simp [St.init, Inside], by simp [St.init], by simp [St.init],
    by simp [St.init], by simp [St.init], by simp [St.init]⟩ (inv_step hS) h

/-- What a finished lookup returned: the object built for the key asked for, or an exception
exactly when building it throws. -/
theorem lookup_result {S : Sys C M K V} (hS : S.Good) {P : Req C K → Prop} {s : St C M K V}
    (h : Reach S P s) {c : C} {k : K} {res : Result V} (hr : (.get c k, res) ∈ s.hist) :
    (∃ v, res = .val v ∧ S.build c k = some v) ∨ (res = .exc ∧ S.build c k = none) := by
  have I := inv_reach hS h
  have := I.done _ hr
  cases res with
  | val v => exact .inl ⟨v, rfl, I.built _ _ _ this⟩
  | size n => exact this.elim
  | exc => exact .inr ⟨rfl, this⟩

/-- When no call is under way, a map holds exactly one entry for each key that was served. -/
theorem idle_size {S : Sys C M K V} (hS : S.Good) {P : Req C K → Prop} {s : St C M K V}
    (h : Reach S P s) (hi : Idle s) (c : C) :
    ∃ ks : List K, ks.Nodup ∧ ks.length = (s.cache c).length ∧
      ∀ k, k ∈ ks ↔ ∃ v, (Req.get c k, Result.val v) ∈ s.hist := by
  have I := inv_reach hS h
  refine ⟨_, I.nodup c, by simp, fun k => ?_⟩
  constructor
  · intro hk
    obtain ⟨⟨k', v⟩, he, rfl⟩ := List.mem_map.1 hk
    rcases I.served _ _ _ he with h1 | ⟨t, ht⟩
    · exact ⟨v, h1⟩
    · rw [hi t] at ht; cases ht
  · rintro ⟨v, hv⟩
    exact List.mem_map.2 ⟨(k, v), I.done _ hv, rfl⟩

/-- Entries are never changed or removed. -/
theorem step_stable {S : Sys C M K V} {P : Req C K → Prop} {s s' : St C M K V}
    (st : Step S P s s') (c : C) : s.cache c <+: s'.cache c := by
  cases st with
  | insert t d k v ht =>
    by_cases e : c = d
    · subst e
      simp only [Function.update_self]
      unfold Sys.insert
      cases S.find (s.cache c) (S.slot c k) <;> simp
    · simp [Function.update_of_ne e]
  | _ => exact List.prefix_rfl

theorem stable {S : Sys C M K V} {P : Req C K → Prop} {s s' : St C M K V}
    (h : Relation.ReflTransGen (Step S P) s s') (c : C) : s.cache c <+: s'.cache c := by
  induction h with
  | refl => exact List.prefix_rfl
  | tail _ st ih => exact ih.trans (step_stable st c)

/-! ### The reported size -/

/-- The list `ks` enumerates the keys of map `c` served in `h`. -/
def Keys (h : List (Req C K × Result V)) (c : C) (n : ℕ) : Prop :=
  ∃ ks : List K, ks.Nodup ∧ ks.length = n ∧ ∀ k, k ∈ ks ↔ ∃ v, (Req.get c k, Result.val v) ∈ h

/-- Sizes about to be returned are current, sizes returned were the number of keys served
by the calls finished before. -/
structure SizeInv (c : C) (s : St C M K V) : Prop where
  pending : ∀ t n, s.thr t = some (.dim c, .leave (.size n)) → n = (s.cache c).length
  past : ∀ h1 h2 n, s.hist = h1 ++ (.dim c, .size n) :: h2 → Keys h2 c n

theorem sizeInv_step {S : Sys C M K V} (hS : S.Good) {P : Req C K → Prop} (c : C)
    (hl : S.dimLock c = S.getLock c) (s s' : St C M K V) (I : Inv S s) (h : SizeInv c s)
    (st : Step S P s s') : SizeInv c s' := by
  have key : ∀ (t : ℕ) (x : Req C K × Pc V) (o : M → Option ℕ),
      (∀ n, x = (.dim c, .leave (.size n)) → n = (s.cache c).length) →
      SizeInv c { s with owner := o, thr := Function.update s.thr t (some x) } := by
    intro t x o hx
    refine ⟨fun u n hu => ?_, h.past⟩
    by_cases e : u = t
    · subst e; simp only [Function.update_self, Option.some.injEq] at hu; exact hx n hu
    · simp only [Function.update_of_ne e] at hu; exact h.pending _ _ hu
  cases st with
  | call t r ht hP => exact key t _ _ (by intro n e; cases e)
  | acquire t r ht ho => exact key t _ _ (by intro n e; cases e)
  | hit t c k v ht hf => exact key t _ _ (by intro n e; cases e)
  | miss t c k ht hf => exact key t _ _ (by intro n e; cases e)
  | built t c k v ht hb => exact key t _ _ (by intro n e; cases e)
  | failed t c k ht hb => exact key t _ _ (by intro n e; cases e)
  | size t d ht => exact key t _ _ (by intro n e; cases e; rfl)
  | insert t d k v ht =>
    refine ⟨fun u n hu => ?_, h.past⟩
    by_cases e : u = t
    · subst e; simp at hu
    · simp only [Function.update_of_ne e] at hu
      by_cases ed : c = d
      · subst ed
        refine (e (exclusive I.mutex (m := S.getLock c) ?_ ?_)).elim
        · rw [hu]; simpa [Inside, Sys.lock] using hl
        · rw [ht]; simp [Inside, Sys.lock]
      · simp only [Function.update_of_ne ed]; exact h.pending _ _ hu
  | release t r res ht =>
    refine ⟨fun u n hu => ?_, ?_⟩
    · by_cases e : u = t
      · subst e; simp at hu
      · simp only [Function.update_of_ne e] at hu; exact h.pending _ _ hu
    · intro h1 h2 n e
      rcases h1 with _ | ⟨y, h1⟩
      · simp only [List.nil_append, List.cons.injEq, Prod.mk.injEq] at e
        obtain ⟨⟨rfl, rfl⟩, rfl⟩ := e
        have hn := h.pending _ _ ht
        refine ⟨(s.cache c).map Prod.fst, I.nodup c, by simp [hn], fun k => ?_⟩
        constructor
        · intro hk
          obtain ⟨⟨k', v⟩, he, rfl⟩ := List.mem_map.1 hk
          rcases I.served _ _ _ he with h1 | ⟨u, hu⟩
          · exact ⟨v, h1⟩
          · have : u = t := exclusive I.mutex (m := S.getLock c)
              (by rw [hu]; simp [Inside, Sys.lock]) (by rw [ht]; simpa [Inside, Sys.lock] using hl)
            subst this
            rw [ht] at hu; cases hu
        · rintro ⟨v, hv⟩
          exact List.mem_map.2 ⟨(k, v), I.done _ hv, rfl⟩
      · simp only [List.cons_append, List.cons.injEq] at e
        exact h.past h1 h2 n e.2

/-- Every size reported (in a family where the reporting function takes the right mutex) is
the number of distinct keys served by the calls finished before it. -/
theorem size_result {S : Sys C M K V} (hS : S.Good) {P : Req C K → Prop} {s : St C M K V}
    (h : Reach S P s) (c : C) (hl : S.dimLock c = S.getLock c)
    (h1 h2 : List (Req C K × Result V)) (n : ℕ) (e : s.hist = h1 ++ (.dim c, .size n) :: h2) :
    Keys h2 c n := by
  have : Inv S s ∧ SizeInv c s :=
    reach_induction (Q := fun s => Inv S s ∧ SizeInv c s)
      ⟨inv_reach hS (P := P) .refl, by simp [St.init], by simp [St.init]⟩
      (fun s s' ih st => ⟨inv_step hS s s' ih.1 st, sizeInv_step hS c hl s s' ih.1 ih.2 st⟩) h
  exact this.2.past h1 h2 n e

end Kep3.Cache
