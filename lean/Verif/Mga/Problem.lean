import Verif.Mga.Encoding
import Verif.Mut
import Verif.Epoch.Lemmas

/-!
# The MGA problem: construction and bounds

`pykep/trajopt/_mga.py`. Arguments are Python values. Numpy scalars count as numbers; the values of subclasses of `list` and
`str` are not modelled.
-/

namespace Kep3.Mga

/-- A Python value. -/
inductive Py
  | num (d : Dbl)
  | str (s : String)
  | list (l : List Py)
  | other

/-- An item of the argument `t0`. -/
inductive When
  | epoch (e : Int)
  | num (d : Dbl)
  | other

/-- What is not modelled of Python: `float(s)` for a string, and `a >= b` unless both are numbers. -/
structure PyEnv where
  parse : String → Option Dbl
  geOther : Py → Py → Res Bool

/-- `a >= b`. -/
def PyEnv.ge (E : PyEnv) : Py → Py → Res Bool
  | .num a, .num b => .ok (Dbl.le b a)
  | a, b => E.geOther a b

/-- `float(x)`: `TypeError` for a value that is no number, `ValueError` for a string that is no numeral. -/
def PyEnv.float (E : PyEnv) : Py → Res Dbl
  | .num a => .ok a
  | .str s => match E.parse s with
    | some a => .ok a
    | none => .err .value
  | _ => .err .typeError

/-- `pykep.epoch(t0[i], MJD2000)` unless it is an epoch already, pykep/trajopt/_mga.py:97-98, pykep/core.cpp:134-137. The
conversion of a double that is no number to an integer is undefined. -/
def toEpoch : When → Res Int
  | .epoch e => .ok e
  | .num (.fin q) => Epoch.ofJulian q .MJD2000
  | .num _ => .ub
  | .other => .err .typeError

/-- The loop over `t0`, pykep/trajopt/_mga.py:96-98. The items of the caller's list are replaced. -/
def convert : List When → Res Unit × List When
  | [] => (.ok (), [])
  | w :: ws =>
    match toEpoch w with
    | .ok e => let r := convert ws; (r.1, .epoch e :: r.2)
    | .err x => (.err x, w :: ws)
    | .ub => (.ub, w :: ws)

/-- The loop as a statement that changes the list. -/
def convertM : Mut (List When) Unit := convert

/-- `all(p(x) for x in l)`. -/
def allM (p : Py → Res Bool) : List Py → Res Bool
  | [] => .ok true
  | a :: l => do
    let b ← p a
    if b then allM p l else return false

/-- `isinstance(elem, list) and len(elem) == 2`. -/
def isPair : Py → Bool
  | .list [_, _] => true
  | _ => false

/-- `elem[1] >= elem[0]`. -/
def PyEnv.ordered (E : PyEnv) : Py → Res Bool
  | .list (a :: b :: _) => E.ge b a
  | .list _ => .err .index
  | _ => .err .typeError

/-- The check of the shape of the times of flight, pykep/trajopt/_mga.py:100-136. `n` is the number of planets. -/
def checkShape (E : PyEnv) (n : ℕ) (enc : String) (tof : Py) : Res Unit :=
  if enc = "alpha" then
    match tof with
    | .list l => if l.length ≠ 2 then .err .typeError else .ok ()
    | _ => .err .typeError
  else if enc = "direct" then
    match tof with
    | .list l =>
      if l.length ≠ n - 1 then .err .typeError
      else allM (fun e => .ok (isPair e)) l >>= fun a =>
        if a = false then .err .typeError
        else allM E.ordered l >>= fun b => if b = false then .err .typeError else .ok ()
    | _ => .err .typeError
  else if enc = "eta" then E.float tof >>= fun _ => .ok ()
  else .ok ()

/-- The check of the times of flight and of the encoding, pykep/trajopt/_mga.py:100-138. -/
def checkTof (E : PyEnv) (n : ℕ) (enc : String) (tof : Py) : Res Unit := do
  checkShape E n enc tof
  if enc = "alpha" ∨ enc = "eta" ∨ enc = "direct" then .ok () else .err .value

/-- The first check, pykep/trajopt/_mga.py:88-93. `mus` is what `get_mu_central_body` gives for each planet. -/
def checkMu (mus : List (Res Dbl)) : Res Dbl := do
  let l ← mus.mapM id
  let m ← idx l 0
  if (l.filter (Dbl.beq · m)).length ≠ l.length then .err .value else return m

/-- The data members that matter below, pykep/trajopt/_mga.py:152-165. -/
structure Problem where
  t0 : List When
  tof : Py
  enc : String
  multiObjective : Bool
  orbitInsertion : Bool
  eTarget : Option Dbl
  rpTarget : Option Dbl
  nLegs : ℕ
  commonMu : Dbl

/-- The constructor, pykep/trajopt/_mga.py:86-165. The state is the caller's list `t0`. -/
def make (E : PyEnv) (mus : List (Res Dbl)) (tof : Py) (mo : Bool) (enc : String) (oi : Bool) (e rp : Option Dbl) :
    Mut (List When) Problem := do
  let m ← Mut.call (checkMu mus)
  convertM
  Mut.call (checkTof E mus.length enc tof)
  if oi ∧ rp = none then Mut.call (.err .value)
  else if oi ∧ e = none then Mut.call (.err .value)
  else fun t0 => (.ok ⟨t0, tof, enc, mo, oi, e, rp, mus.length - 1, m⟩, t0)

/-- `get_nobj`, pykep/trajopt/_mga.py:167-168. -/
def Problem.nobj (p : Problem) : ℕ := (if p.multiObjective then 1 else 0) + 1

/-- `t0[i].mjd2000`. -/
def Problem.mjd2000 (p : Problem) (i : ℕ) : Res Py := do
  match ← idx p.t0 i with
  | .epoch e => return .num (.fin (Epoch.mjd2000 e))
  | _ => .err .typeError

/-- `tof[i]`. -/
def item (i : ℕ) : Py → Res Py
  | .list l => idx l i
  | _ => .err .typeError

/-- `for it in tof`. -/
def items : Py → Res (List Py)
  | .list l => .ok l
  | _ => .err .typeError

/-- The bounds of the genes of the alpha and eta encodings, pykep/trajopt/_mga.py:177-178, 185-186. -/
def gene : Py × Py := (.num (.fin (1 / 1000)), .num (.fin (1 - 1 / 1000)))

/-- `get_bounds`, pykep/trajopt/_mga.py:170-187. -/
def Problem.bounds (p : Problem) : Res (List Py × List Py) := do
  if p.enc = "alpha" then do
    let a ← p.mjd2000 0
    let l ← item 0 p.tof
    let b ← p.mjd2000 1
    let u ← item 1 p.tof
    return ([a, l] ++ List.replicate p.nLegs gene.1, [b, u] ++ List.replicate p.nLegs gene.2)
  else if p.enc = "direct" then do
    let a ← p.mjd2000 0
    let ts ← items p.tof
    let l ← ts.mapM (item 0)
    let b ← p.mjd2000 1
    let u ← ts.mapM (item 1)
    return ([a] ++ l, [b] ++ u)
  else if p.enc = "eta" then do
    let a ← p.mjd2000 0
    let b ← p.mjd2000 1
    return ([a] ++ List.replicate p.nLegs gene.1, [b] ++ List.replicate p.nLegs gene.2)
  else .err .name

/-! ## What a user expects -/

/-- The argument `tof` has the shape of the encoding. -/
inductive Shape (E : PyEnv) (n : ℕ) : String → Py → Prop
  /-- Two values. -/
  | alpha (l u : Py) : Shape E n "alpha" (.list [l, u])
  /-- One pair per leg, ordered. -/
  | direct (ps : List (Py × Py)) (hn : ps.length = n - 1) (h : ∀ p ∈ ps, E.ge p.2 p.1 = .ok true) :
      Shape E n "direct" (.list (ps.map fun p => .list [p.1, p.2]))
  /-- One number. -/
  | eta (d : Dbl) : Shape E n "eta" (.num d)
  /-- A string with a number in it. -/
  | etaStr (s : String) (d : Dbl) (h : E.parse s = some d) : Shape E n "eta" (.str s)

/-! ## Lemmas -/

theorem allM_pure {p : Py → Bool} {l : List Py} : allM (fun e => .ok (p e)) l = .ok (l.all p) := by
  induction l with
  | nil => rfl
  | cons a l ih =>
    rw [allM]
    simp only [Res.ok_bind, List.all_cons]
    cases p a
    · rfl
    · simpa using ih

theorem allM_true {p : Py → Res Bool} {l : List Py} : allM p l = .ok true ↔ ∀ a ∈ l, p a = .ok true := by
  induction l with
  | nil => simp [allM]
  | cons a l ih =>
    rw [allM]
    cases h : p a with
    | ok b => cases b <;> simp [h, ih]
    | err e => simp [h]
    | ub => simp [h]

theorem isPair_iff {a : Py} : isPair a = true ↔ ∃ l u, a = .list [l, u] := by
  constructor
  · intro h
    unfold isPair at h
    split at h
    · exact ⟨_, _, rfl⟩
    · exact absurd h (by simp)
  · rintro ⟨l, u, rfl⟩; rfl

theorem pairs_of {l : List Py} (h : ∀ a ∈ l, isPair a = true) : ∃ ps : List (Py × Py), l = ps.map fun p => .list [p.1, p.2] := by
  induction l with
  | nil => exact ⟨[], rfl⟩
  | cons a l ih =>
    obtain ⟨ps, rfl⟩ := ih fun b hb => h b (List.mem_cons_of_mem _ hb)
    obtain ⟨x, y, rfl⟩ := isPair_iff.1 (h a List.mem_cons_self)
    exact ⟨(x, y) :: ps, rfl⟩

theorem checkShape_iff (E : PyEnv) (n : ℕ) {enc : String} (he : enc = "alpha" ∨ enc = "eta" ∨ enc = "direct") (tof : Py) :
    checkShape E n enc tof = .ok () ↔ Shape E n enc tof := by
  constructor
  · intro h
    unfold checkShape at h
    rcases he with rfl | rfl | rfl
    · cases tof with
      | list l =>
        rcases l with _ | ⟨a, _ | ⟨b, _ | ⟨c, l⟩⟩⟩ <;> simp at h
        exact .alpha a b
      | _ => simp at h
    · cases tof with
      | num d => exact .eta d
      | str s =>
        cases hp : E.parse s with
        | some d => exact .etaStr s d hp
        | none => simp [PyEnv.float, hp] at h
      | _ => simp [PyEnv.float] at h
    · cases tof with
      | list l =>
        simp only [allM_pure, Res.ok_bind] at h
        by_cases hl : l.length = n - 1
        swap
        · simp [hl] at h
        by_cases ha : l.all isPair = true
        swap
        · simp only [Bool.not_eq_true] at ha
          simp [hl, ha] at h
        obtain ⟨ps, rfl⟩ := pairs_of (by simpa using ha)
        refine .direct ps (by simpa using hl) fun p hp => ?_
        have : allM E.ordered (ps.map fun p => Py.list [p.1, p.2]) = .ok true := by
          cases hb : allM E.ordered (ps.map fun p => Py.list [p.1, p.2]) with
          | ok b => cases b with
            | true => rfl
            | false => simp only [hl, ha, hb] at h; simp at h
          | err e => simp only [hl, ha, hb] at h; simp at h
          | ub => simp only [hl, ha, hb] at h; simp at h
        exact allM_true.1 this _ (List.mem_map_of_mem hp)
      | _ => simp at h
  · intro h
    cases h with
    | alpha l u => simp [checkShape]
    | direct ps hn h =>
      have e1 : allM (fun e => .ok (isPair e)) (ps.map fun p => Py.list [p.1, p.2]) = .ok true := by
        rw [allM_pure]; simp [isPair]
      have e2 : allM E.ordered (ps.map fun p => Py.list [p.1, p.2]) = .ok true := by
        rw [allM_true]
        intro a ha
        obtain ⟨p, hp, rfl⟩ := List.mem_map.1 ha
        exact h p hp
      unfold checkShape
      simp [hn, e1, e2]
    | eta d => simp [checkShape, PyEnv.float]
    | etaStr s d h => simp [checkShape, PyEnv.float, h]

/-- The check of the times of flight accepts the shapes and nothing else. -/
theorem checkTof_iff (E : PyEnv) (n : ℕ) (enc : String) (tof : Py) : checkTof E n enc tof = .ok () ↔ Shape E n enc tof := by
  unfold checkTof
  by_cases he : enc = "alpha" ∨ enc = "eta" ∨ enc = "direct"
  · rw [if_pos he, ← checkShape_iff E n he, show (do checkShape E n enc tof; Res.ok ()) = checkShape E n enc tof from
      Res.bind_ok _]
  · rw [if_neg he]
    constructor
    · intro h; cases hs : checkShape E n enc tof <;> simp [hs] at h
    · intro h; cases h <;> simp at he

theorem convert_ok (l : List When) : (convert l).1 = .ok () ↔ ∀ w ∈ l, ∃ e, toEpoch w = .ok e := by
  induction l with
  | nil => simp [convert]
  | cons w l ih =>
    rw [convert]
    cases h : toEpoch w with
    | ok e => simp [ih, h]
    | err e => simp [h]
    | ub => simp [h]

theorem convert_val {l : List When} {es : List Int} (h : l.map toEpoch = es.map Res.ok) :
    convert l = (.ok (), es.map When.epoch) := by
  induction l generalizing es with
  | nil => cases es with
    | nil => rfl
    | cons e es => simp at h
  | cons w l ih => cases es with
    | nil => simp at h
    | cons e es =>
      simp only [List.map_cons, List.cons.injEq] at h
      rw [convert, h.1, ih h.2]
      rfl

theorem convert_length (l : List When) : (convert l).2.length = l.length := by
  induction l with
  | nil => rfl
  | cons w l ih => rw [convert]; cases toEpoch w <;> simp [ih]

theorem mapM_id_ok {α : Type} {l : List (Res α)} {v : List α} : l.mapM id = .ok v ↔ l = v.map .ok := by
  induction l generalizing v with
  | nil => cases v <;> simp
  | cons a l ih =>
    rw [List.mapM_cons]
    cases a with
    | ok a =>
      simp only [id, Res.ok_bind]
      cases hm : l.mapM id with
      | ok w =>
        have := (ih (v := w)).1 hm
        subst this
        cases v with
        | nil => simp
        | cons b v =>
          simp only [Res.ok_bind, Res.pure_eq, Res.ok.injEq, List.cons.injEq, List.map_cons]
          constructor
          · rintro ⟨rfl, rfl⟩; exact ⟨rfl, rfl⟩
          · rintro ⟨rfl, h⟩; exact ⟨rfl, by
              have := List.map_injective_iff.2 (fun a b (h : Res.ok a = Res.ok b) => Res.ok.inj h) h
              exact this⟩
      | err e =>
        simp only [Res.err_bind, reduceCtorEq, false_iff]
        intro h
        cases v with
        | nil => simp at h
        | cons b v =>
          simp only [List.map_cons, List.cons.injEq] at h
          rw [(ih (v := v)).2 h.2] at hm
          exact absurd hm (by simp)
      | ub =>
        simp only [Res.ub_bind, reduceCtorEq, false_iff]
        intro h
        cases v with
        | nil => simp at h
        | cons b v =>
          simp only [List.map_cons, List.cons.injEq] at h
          rw [(ih (v := v)).2 h.2] at hm
          exact absurd hm (by simp)
    | err e => cases v <;> simp
    | ub => cases v <;> simp

/-- The first check: there is a planet and all have the same number as gravity parameter of the central body. -/
theorem checkMu_iff (mus : List (Res Dbl)) (m : Dbl) :
    checkMu mus = .ok m ↔ mus ≠ [] ∧ m ≠ .nan ∧ ∀ r ∈ mus, r = .ok m := by
  have hb : ∀ a b : Dbl, Dbl.beq a b = true ↔ a = b ∧ a ≠ .nan := by
    intro a b
    cases a <;> cases b <;> simp [Dbl.beq]
  constructor
  · intro h
    unfold checkMu at h
    cases hm : mus.mapM id with
    | ok l =>
      rw [hm] at h
      have := mapM_id_ok.1 hm
      subst this
      cases l with
      | nil => simp [idx] at h
      | cons a l =>
        simp only [Res.ok_bind, idx, List.getElem?_cons_zero] at h
        split_ifs at h with hc
        simp only [Res.pure_eq, Res.ok.injEq] at h
        subst h
        rw [not_not] at hc
        have hall := List.length_filter_eq_length_iff.1 hc
        refine ⟨by simp, ((hb a a).1 (hall a List.mem_cons_self)).2, fun r hr => ?_⟩
        obtain ⟨c, hcm, rfl⟩ := List.mem_map.1 hr
        rw [((hb c a).1 (hall c hcm)).1]
    | err e => rw [hm] at h; exact absurd h (by simp)
    | ub => rw [hm] at h; exact absurd h (by simp)
  · rintro ⟨h1, h2, h3⟩
    have e : mus = (List.replicate mus.length m).map .ok := by
      rw [List.map_replicate]
      exact List.eq_replicate_of_mem h3
    have hm : mus.mapM id = .ok (List.replicate mus.length m) := mapM_id_ok.2 e
    unfold checkMu
    rw [hm]
    obtain ⟨k, hk⟩ : ∃ k, mus.length = k + 1 := ⟨mus.length - 1, by have := List.length_pos_iff.2 h1; omega⟩
    rw [hk]
    have hf : ((List.replicate (k + 1) m).filter (Dbl.beq · m)).length = (List.replicate (k + 1) m).length :=
      List.length_filter_eq_length_iff.2 fun a ha => by
        rw [List.eq_of_mem_replicate ha]; exact (hb m m).2 ⟨rfl, h2⟩
    simp only [Res.ok_bind, idx, List.replicate_succ, List.getElem?_cons_zero]
    rw [← List.replicate_succ, hf]
    simp

/-- The outcome of the constructor. -/
theorem make_run (E : PyEnv) (mus : List (Res Dbl)) (tof : Py) (mo : Bool) (enc : String) (oi : Bool) (e rp : Option Dbl)
    (t0 : List When) (p : Problem) :
    (make E mus tof mo enc oi e rp t0).1 = .ok p ↔
      ∃ m, checkMu mus = .ok m ∧ (convert t0).1 = .ok () ∧ checkTof E mus.length enc tof = .ok () ∧
        (oi = true → e ≠ none ∧ rp ≠ none) ∧ p = ⟨(convert t0).2, tof, enc, mo, oi, e, rp, mus.length - 1, m⟩ := by
  unfold make
  cases h1 : checkMu mus with
  | ok m =>
    rw [Mut.call_ok_bind, Mut.bind_run, convertM]
    rcases h2 : convert t0 with ⟨r, l⟩
    cases r with
    | ok u =>
      cases h3 : checkTof E mus.length enc tof with
      | ok u =>
        rw [Mut.call_ok_bind]
        by_cases h4 : oi = true
        · cases rp <;> cases e <;> simp [h4, eq_comm]
        · simp [h4, eq_comm]
      | err e => simp
      | ub => simp
    | err e => simp
    | ub => simp
  | err e => simp
  | ub => simp

/-! ## C53 -/

/-- **C53**: which arguments are accepted. The list of shapes contains more than the documented ones, see below. -/
theorem C53_accepts_partial (E : PyEnv) (mus : List (Res Dbl)) (tof : Py) (mo : Bool) (enc : String) (oi : Bool)
    (e rp : Option Dbl) (t0 : List When) :
    (∃ p, (make E mus tof mo enc oi e rp t0).1 = .ok p) ↔
      (mus ≠ [] ∧ ∃ m, m ≠ .nan ∧ ∀ r ∈ mus, r = .ok m) ∧ (∀ w ∈ t0, ∃ e, toEpoch w = .ok e) ∧
        Shape E mus.length enc tof ∧ (oi = true → e ≠ none ∧ rp ≠ none) := by
  simp only [make_run, checkMu_iff, convert_ok, checkTof_iff]
  constructor
  · rintro ⟨p, m, ⟨h1, h2, h3⟩, h4, h5, h6, -⟩; exact ⟨⟨h1, m, h2, h3⟩, h4, h5, h6⟩
  · rintro ⟨⟨h1, m, h2, h3⟩, h4, h5, h6⟩; exact ⟨_, m, ⟨h1, h2, h3⟩, h4, h5, h6, rfl⟩

/-- The class of the error for a bad argument, in the order of the checks. -/
theorem C53_errors (E : PyEnv) (mus : List (Res Dbl)) (tof : Py) (mo : Bool) (enc : String) (oi : Bool)
    (e rp : Option Dbl) (t0 : List When) {m : Dbl} (hm : checkMu mus = .ok m) (ht : (convert t0).1 = .ok ()) :
    (enc ≠ "alpha" → enc ≠ "direct" → enc ≠ "eta" → (make E mus tof mo enc oi e rp t0).1 = .err .value) ∧
    (Shape E mus.length enc tof → oi = true → (e = none ∨ rp = none) → (make E mus tof mo enc oi e rp t0).1 = .err .value) ∧
    ((∀ l, tof ≠ .list l) → (enc = "alpha" ∨ enc = "direct") → (make E mus tof mo enc oi e rp t0).1 = .err .typeError) ∧
    ((∀ d, tof ≠ .num d) → (∀ s, tof ≠ .str s) → enc = "eta" → (make E mus tof mo enc oi e rp t0).1 = .err .typeError) := by
  have hr : ∀ x : Res Unit, checkTof E mus.length enc tof = x → (∀ u, x ≠ .ok u) →
      (make E mus tof mo enc oi e rp t0).1 = (match x with | .ok _ => .ub | .err e => .err e | .ub => .ub) := by
    intro x hx hn
    unfold make
    rw [hm, Mut.call_ok_bind, Mut.bind_run, convertM]
    rcases h2 : convert t0 with ⟨r, l⟩
    rw [h2] at ht
    dsimp only at ht
    subst ht
    rw [hx]
    cases x with
    | ok u => exact absurd rfl (hn u)
    | err e => simp
    | ub => simp
  refine ⟨fun h1 h2 h3 => ?_, fun hs ho hn => ?_, fun hl h => ?_, fun h1 h2 h => ?_⟩
  · rw [hr (.err .value) (by simp [checkTof, checkShape, h1, h2, h3]) (by simp)]
  · unfold make
    rw [hm, Mut.call_ok_bind, Mut.bind_run, convertM]
    rcases h2 : convert t0 with ⟨r, l⟩
    rw [h2] at ht
    dsimp only at ht
    subst ht
    rw [(checkTof_iff _ _ _ _).2 hs]
    rcases hn with h | h <;> cases rp <;> cases e <;> simp_all
  · rw [hr (.err .typeError) ?_ (by simp)]
    rcases h with rfl | rfl <;> cases tof with
      | list l => exact absurd rfl (hl l)
      | _ => simp [checkTof, checkShape]
  · rw [hr (.err .typeError) ?_ (by simp)]
    subst h
    cases tof with
    | num d => exact absurd rfl (h1 d)
    | str d => exact absurd rfl (h2 d)
    | _ => simp [checkTof, checkShape, PyEnv.float]

/-- **C53**: the number of objectives. -/
theorem C53_nobj (p : Problem) : (p.nobj = 2 ↔ p.multiObjective = true) ∧ (p.nobj = 1 ↔ p.multiObjective = false) := by
  unfold Problem.nobj
  cases p.multiObjective <;> simp

/-- The dimension of the decision vector for `n` legs, as documented, pykep/trajopt/_mga.py:13-17, 36. -/
def dimension (enc : String) (n : ℕ) : ℕ := if enc = "alpha" then n + 2 else n + 1

theorem mapM_fst (ps : List (Py × Py)) : (ps.map fun p => Py.list [p.1, p.2]).mapM (item 0) = .ok (ps.map Prod.fst) := by
  induction ps with
  | nil => rfl
  | cons a ps ih => rw [List.map_cons, List.mapM_cons, ih]; rfl

theorem mapM_snd (ps : List (Py × Py)) : (ps.map fun p => Py.list [p.1, p.2]).mapM (item 1) = .ok (ps.map Prod.snd) := by
  induction ps with
  | nil => rfl
  | cons a ps ih => rw [List.map_cons, List.mapM_cons, ih]; rfl

/-- The bounds of an accepted problem with two launch dates. -/
theorem bounds_eq {E : PyEnv} {mus : List (Res Dbl)} {tof : Py} {mo : Bool} {enc : String} {oi : Bool} {e rp : Option Dbl}
    {w0 w1 : When} {p : Problem} (h : (make E mus tof mo enc oi e rp [w0, w1]).1 = .ok p) :
    ∃ (e0 e1 : Int) (bs : List (Py × Py)), toEpoch w0 = .ok e0 ∧ toEpoch w1 = .ok e1 ∧
      p.bounds = .ok (.num (.fin (Epoch.mjd2000 e0)) :: bs.map Prod.fst, .num (.fin (Epoch.mjd2000 e1)) :: bs.map Prod.snd) ∧
      p.nLegs = mus.length - 1 ∧ bs.length + 1 = dimension enc (mus.length - 1) ∧
      ((∃ l u, enc = "alpha" ∧ tof = .list [l, u] ∧ bs = (l, u) :: List.replicate p.nLegs gene) ∨
       (enc = "direct" ∧ tof = .list (bs.map fun p => .list [p.1, p.2]) ∧ ∀ b ∈ bs, E.ge b.2 b.1 = .ok true) ∨
       (enc = "eta" ∧ bs = List.replicate p.nLegs gene)) := by
  obtain ⟨m, -, h2, h3, -, rfl⟩ := (make_run _ _ _ _ _ _ _ _ _ _).1 h
  have h2' := (convert_ok _).1 h2
  obtain ⟨e0, h0⟩ := h2' w0 (by simp)
  obtain ⟨e1, h1⟩ := h2' w1 (by simp)
  have hc : convert [w0, w1] = (.ok (), [.epoch e0, .epoch e1]) := convert_val (es := [e0, e1]) (by simp [h0, h1])
  rw [hc]
  have m0 : ∀ a b c d f g i j, Problem.mjd2000 ⟨[When.epoch e0, When.epoch e1], a, b, c, d, f, g, i, j⟩ 0 =
    .ok (.num (.fin (Epoch.mjd2000 e0))) := fun _ _ _ _ _ _ _ _ => rfl
  have m1 : ∀ a b c d f g i j, Problem.mjd2000 ⟨[When.epoch e0, When.epoch e1], a, b, c, d, f, g, i, j⟩ 1 =
    .ok (.num (.fin (Epoch.mjd2000 e1))) := fun _ _ _ _ _ _ _ _ => rfl
  have hs := (checkTof_iff _ _ _ _).1 h3
  refine ⟨e0, e1, ?_⟩
  cases hs with
  | alpha l u =>
    refine ⟨(l, u) :: List.replicate (mus.length - 1) gene, h0, h1, ?_, rfl, by simp [dimension], .inl ⟨l, u, rfl, rfl, rfl⟩⟩
    simp [Problem.bounds, m0, m1, item, idx]
  | direct ps hn hp =>
    refine ⟨ps, h0, h1, ?_, rfl, by simp [dimension, hn], .inr (.inl ⟨rfl, rfl, hp⟩)⟩
    simp only [Problem.bounds, m0, m1, items, mapM_fst, mapM_snd, Res.ok_bind]; simp
  | eta d =>
    refine ⟨List.replicate (mus.length - 1) gene, h0, h1, ?_, rfl, by simp [dimension], .inr (.inr ⟨rfl, rfl⟩)⟩
    simp [Problem.bounds, m0, m1]
  | etaStr s d hp =>
    refine ⟨List.replicate (mus.length - 1) gene, h0, h1, ?_, rfl, by simp [dimension], .inr (.inr ⟨rfl, rfl⟩)⟩
    simp [Problem.bounds, m0, m1]

theorem ofJulian_mono {a b : ℚ} {e f : Int} (h : a ≤ b) (ha : Epoch.ofJulian a .MJD2000 = .ok e)
    (hb : Epoch.ofJulian b .MJD2000 = .ok f) : Epoch.mjd2000 e ≤ Epoch.mjd2000 f := by
  have key : ∀ {q : ℚ} {e : Int}, Epoch.ofJulian q .MJD2000 = .ok e → e = Epoch.y2kOffset + Epoch.trunc (q * 86400000000) := by
    intro q e h
    unfold Epoch.ofJulian Epoch.tpFromDays at h
    simp only [Epoch.chk64] at h
    split_ifs at h with h1 h2
    all_goals simp at h
    · split_ifs at h with h2
      exact (Res.ok.inj h).symm
  rw [key ha, key hb]
  unfold Epoch.mjd2000
  have : Epoch.trunc (a * 86400000000) ≤ Epoch.trunc (b * 86400000000) := by
    have hab : a * 86400000000 ≤ b * 86400000000 := by linarith
    unfold Epoch.trunc
    split_ifs with h1 h2 h2
    · exact Int.floor_le_floor hab
    · linarith
    · have : ⌈a * 86400000000⌉ ≤ 0 := by rw [Int.ceil_le]; push_cast; linarith
      exact this.trans (Int.floor_nonneg.2 h2)
    · exact Int.ceil_le_ceil hab
  have h' : ((Epoch.y2kOffset + Epoch.trunc (a * 86400000000) - Epoch.y2kOffset : Int) : ℚ) ≤
      ((Epoch.y2kOffset + Epoch.trunc (b * 86400000000) - Epoch.y2kOffset : Int) : ℚ) := by
    exact_mod_cast (by linarith)
  linarith

/-- **C53**: the bounds vectors of an accepted problem have the dimension of the decision vector, and the lower bounds do
not exceed the upper bounds, provided the launch dates (and the total times of flight of the alpha encoding) are two numbers
in increasing order. -/
theorem C53_bounds_partial {E : PyEnv} {mus : List (Res Dbl)} {tof : Py} {mo : Bool} {enc : String} {oi : Bool}
    {e rp : Option Dbl} {a b : ℚ} (hab : a ≤ b) {p : Problem}
    (h : (make E mus tof mo enc oi e rp [.num (.fin a), .num (.fin b)]).1 = .ok p)
    (hT : enc = "alpha" → ∃ l u, tof = .list [.num l, .num u] ∧ Dbl.le l u = true) :
    ∃ lb ub, p.bounds = .ok (lb, ub) ∧ lb.length = dimension enc (mus.length - 1) ∧
      ub.length = dimension enc (mus.length - 1) ∧ ∀ q ∈ lb.zip ub, E.ge q.2 q.1 = .ok true := by
  obtain ⟨e0, e1, bs, h0, h1, hb, hn, hd, hc⟩ := bounds_eq h
  refine ⟨_, _, hb, by simp [hd], by simp [hd], ?_⟩
  have hg : E.ge gene.2 gene.1 = .ok true := by simp [gene, PyEnv.ge, Dbl.le]; norm_num
  have hz : ∀ bs : List (Py × Py), (bs.map Prod.fst).zip (bs.map Prod.snd) = bs := fun bs => by
    rw [List.zip_map', List.map_id'']; exact fun _ => rfl
  have ho : ∀ b ∈ bs, E.ge b.2 b.1 = .ok true := by
    rcases hc with ⟨l, u, rfl, rfl, rfl⟩ | ⟨-, -, h⟩ | ⟨-, rfl⟩
    · obtain ⟨l', u', he, hle⟩ := hT rfl
      simp only [Py.list.injEq, List.cons.injEq, and_true] at he
      obtain ⟨rfl, rfl⟩ := he
      intro b hb
      rcases List.mem_cons.1 hb with rfl | hb
      · exact congrArg Res.ok hle
      · rw [List.eq_of_mem_replicate hb]; exact hg
    · exact h
    · intro b hb
      rw [List.eq_of_mem_replicate hb]; exact hg
  intro q hq
  rw [List.zip_cons_cons, List.mem_cons, hz] at hq
  rcases hq with rfl | hq
  · have := ofJulian_mono hab h0 h1
    simp only [PyEnv.ge, Dbl.le, Dbl.lt_fin, Dbl.beq, Res.ok.injEq, Bool.or_eq_true, decide_eq_true_eq]
    exact this.lt_or_eq
  · exact ho q hq

/-- **C53 fails**: the bounds of the total time of flight may be in the wrong order, or no numbers. -/
theorem C53_alpha_anything (E : PyEnv) {mus : List (Res Dbl)} {m : Dbl} (hm : checkMu mus = .ok m) (l u : Py) :
    ∃ p, (make E mus (.list [l, u]) false "alpha" false none none [.epoch 0, .epoch 0]).1 = .ok p ∧
      ∃ lb ub, p.bounds = .ok (lb, ub) ∧ lb[1]? = some l ∧ ub[1]? = some u := by
  have h : ∃ p, (make E mus (.list [l, u]) false "alpha" false none none [.epoch 0, .epoch 0]).1 = .ok p :=
    ⟨_, (make_run _ _ _ _ _ _ _ _ _ _).2 ⟨m, hm, rfl, (checkTof_iff _ _ _ _).2 (.alpha l u), by simp, rfl⟩⟩
  obtain ⟨p, hp⟩ := h
  obtain ⟨e0, e1, bs, h0, h1, hb, hn, hd, ⟨l', u', -, he, rfl⟩ | ⟨h, -⟩ | ⟨h, -⟩⟩ := bounds_eq hp
  · simp only [Py.list.injEq, List.cons.injEq, and_true] at he
    obtain ⟨rfl, rfl⟩ := he
    exact ⟨p, hp, _, _, hb, rfl, rfl⟩
  · simp at h
  · simp at h

/-- **C53 fails**: launch dates in the wrong order are accepted, in every encoding. -/
theorem C53_launch_reversed (E : PyEnv) {mus : List (Res Dbl)} {m : Dbl} (hm : checkMu mus = .ok m) {enc : String} {tof : Py}
    (hs : Shape E mus.length enc tof) :
    ∃ p, (make E mus tof false enc false none none [.num (.fin 1000), .num (.fin 0)]).1 = .ok p ∧
      ∃ lb ub, p.bounds = .ok (lb, ub) ∧ lb[0]? = some (.num (.fin 1000)) ∧ ub[0]? = some (.num (.fin 0)) := by
  have h1000 : toEpoch (.num (.fin 1000)) = .ok 1033084800000000 := by
    simp only [toEpoch, Epoch.ofJulian, Epoch.tpFromDays, Epoch.trunc]; norm_num [Epoch.chk64, Epoch.fits64, Epoch.y2kOffset]
  have h0 : toEpoch (.num (.fin 0)) = .ok 946684800000000 := by
    simp only [toEpoch, Epoch.ofJulian, Epoch.tpFromDays, Epoch.trunc]; norm_num [Epoch.chk64, Epoch.fits64, Epoch.y2kOffset]
  have h : ∃ p, (make E mus tof false enc false none none [.num (.fin 1000), .num (.fin 0)]).1 = .ok p :=
    ⟨_, (make_run _ _ _ _ _ _ _ _ _ _).2 ⟨m, hm, (convert_ok _).2 (by simp [h1000, h0]), (checkTof_iff _ _ _ _).2 hs, by simp, rfl⟩⟩
  obtain ⟨p, hp⟩ := h
  obtain ⟨e0, e1, bs, k0, k1, hb, -⟩ := bounds_eq hp
  rw [h1000] at k0
  rw [h0] at k1
  obtain rfl := Res.ok.inj k0
  obtain rfl := Res.ok.inj k1
  refine ⟨p, hp, _, _, hb, ?_, ?_⟩ <;> norm_num [Epoch.mjd2000, Epoch.y2kOffset]

/-- **C53 fails**: a single launch date is accepted, and then there are no bounds (`IndexError`). -/
theorem C53_one_date (E : PyEnv) {mus : List (Res Dbl)} {m : Dbl} (hm : checkMu mus = .ok m) {enc : String} {tof : Py}
    (hs : Shape E mus.length enc tof) (e : Int) :
    ∃ p, (make E mus tof false enc false none none [.epoch e]).1 = .ok p ∧ p.bounds = .err .index := by
  refine ⟨_, (make_run _ _ _ _ _ _ _ _ _ _).2 ⟨m, hm, rfl, (checkTof_iff _ _ _ _).2 hs, by simp, rfl⟩, ?_⟩
  have m0 : ∀ a b c d f g i j, Problem.mjd2000 ⟨[When.epoch e], a, b, c, d, f, g, i, j⟩ 0 =
    .ok (.num (.fin (Epoch.mjd2000 e))) := fun _ _ _ _ _ _ _ _ => rfl
  have m1 : ∀ a b c d f g i j, Problem.mjd2000 ⟨[When.epoch e], a, b, c, d, f, g, i, j⟩ 1 = .err .index :=
    fun _ _ _ _ _ _ _ _ => rfl
  have hc : (convert [.epoch e]).2 = [.epoch e] := rfl
  rw [hc]
  cases hs with
  | alpha l u => simp [Problem.bounds, m0, m1, item, idx]
  | direct ps hn hp =>
    simp only [Problem.bounds, m0, m1, items, mapM_fst, mapM_snd, Res.ok_bind]; simp
  | eta d => simp [Problem.bounds, m0, m1]
  | etaStr s d hp => simp [Problem.bounds, m0, m1]

/-- **C53 fails**: with the eta encoding a string that contains a number is accepted as time of flight. -/
theorem C53_eta_string {E : PyEnv} {s : String} {d : Dbl} (hs : E.parse s = some d) {mus : List (Res Dbl)} {m : Dbl}
    (hm : checkMu mus = .ok m) (t0 : List When) (ht : (convert t0).1 = .ok ()) :
    ∃ p, (make E mus (.str s) false "eta" false none none t0).1 = .ok p ∧ p.tof = .str s :=
  ⟨_, (make_run _ _ _ _ _ _ _ _ _ _).2 ⟨m, hm, ht, (checkTof_iff _ _ _ _).2 (.etaStr s d hs), by simp, rfl⟩, rfl⟩

/-- The constructor replaces the numbers in the caller's list of launch dates by epochs; a second construction with that list
gives the same problem. -/
theorem C53_caller_list (E : PyEnv) (mus : List (Res Dbl)) (tof : Py) (mo : Bool) (enc : String) (oi : Bool)
    (e rp : Option Dbl) (t0 : List When) {p : Problem} (h : (make E mus tof mo enc oi e rp t0).1 = .ok p) :
    (∀ w ∈ (make E mus tof mo enc oi e rp t0).2, ∃ e, w = .epoch e) ∧
    (make E mus tof mo enc oi e rp (make E mus tof mo enc oi e rp t0).2).1 = .ok p := by
  obtain ⟨m, h1, h2, h3, h4, rfl⟩ := (make_run _ _ _ _ _ _ _ _ _ _).1 h
  have hs : (make E mus tof mo enc oi e rp t0).2 = (convert t0).2 := by
    unfold make
    rw [h1, Mut.call_ok_bind, Mut.bind_run, convertM]
    rcases hc : convert t0 with ⟨r, l⟩
    rw [hc] at h2
    dsimp only at h2
    subst h2
    rw [h3, Mut.call_ok_bind]
    by_cases ho : oi = true
    · have := h4 ho
      simp [this.1, this.2]
    · simp [ho]
  have hi : ∀ l : List When, (convert l).1 = .ok () → ∃ es : List Int, (convert l).2 = es.map When.epoch := by
    intro l
    induction l with
    | nil => intro _; exact ⟨[], rfl⟩
    | cons w l ih =>
      rw [convert]
      cases toEpoch w with
      | ok e =>
        intro h
        obtain ⟨es, he⟩ := ih h
        exact ⟨e :: es, by simp [he]⟩
      | err e => simp
      | ub => simp
  obtain ⟨es, he⟩ := hi t0 h2
  rw [hs, he]
  have hc : convert (es.map When.epoch) = (.ok (), es.map When.epoch) := convert_val (by simp [toEpoch])
  refine ⟨by simp, (make_run _ _ _ _ _ _ _ _ _ _).2 ⟨m, h1, by rw [hc], h3, h4, by rw [hc]⟩⟩

/-- The default arguments of the class (with the gravity parameter of the Sun replaced by 1). -/
example (E : PyEnv) : ∃ p, (make E [.ok (.fin 1), .ok (.fin 1), .ok (.fin 1)]
    (.list [.list [.num (.fin 30), .num (.fin 200)], .list [.num (.fin 200), .num (.fin 300)]]) false "direct" false none none
    [.epoch 0, .epoch 5]).1 = .ok p :=
  (C53_accepts_partial _ _ _ _ _ _ _ _ _).2 ⟨⟨by simp, .fin 1, by simp, by simp⟩, by simp [toEpoch],
    .direct [(.num (.fin 30), .num (.fin 200)), (.num (.fin 200), .num (.fin 300))] rfl (by
      simp [PyEnv.ge, Dbl.le]; norm_num), by simp⟩

end Kep3.Mga
