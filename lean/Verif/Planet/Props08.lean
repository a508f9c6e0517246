import Verif.Planet.Model
import Verif.Lagr.Props21

/-!
# Planets: dispatch, vectorised ephemerides, period, elements, fly-bys
-/

namespace Kep3
open Real V3

/-! ## C08 -/

/-- **C08**: every getter returns what the user's method returns, and the documented default without it. -/
theorem C08_getters (u : Udpla) :
    ((∀ r, u.muCentralBody = some r → Planet.getMuCentralBody u = r) ∧
      (u.muCentralBody = none → Planet.getMuCentralBody u = .ok (-1))) ∧
    ((∀ r, u.muSelf = some r → Planet.getMuSelf u = r) ∧ (u.muSelf = none → Planet.getMuSelf u = .ok (-1))) ∧
    ((∀ r, u.radius = some r → Planet.getRadius u = r) ∧ (u.radius = none → Planet.getRadius u = .ok (-1))) ∧
    ((∀ r, u.safeRadius = some r → Planet.getSafeRadius u = r) ∧
      (u.safeRadius = none → Planet.getSafeRadius u = .ok (-1))) ∧
    ((∀ r, u.name = some r → Planet.getName u = r) ∧ (u.name = none → Planet.getName u = .ok u.typeName)) ∧
    ((∀ r, u.extraInfo = some r → Planet.getExtraInfo u = r) ∧
      (u.extraInfo = none → Planet.getExtraInfo u = .ok "")) := by
  unfold Planet.getMuCentralBody Planet.getMuSelf Planet.getRadius Planet.getSafeRadius Planet.getName Planet.getExtraInfo
  refine ⟨⟨?_, ?_⟩, ⟨?_, ?_⟩, ⟨?_, ?_⟩, ⟨?_, ?_⟩, ⟨?_, ?_⟩, ?_, ?_⟩ <;> intros <;> simp_all

/-- **C08**: the period is the user's, else computed from the ephemeris at the same epoch and the user's parameter, else
not_implemented_error; and that error is raised in no other case, unless the user's methods raise it. -/
theorem C08_period (u : Udpla) (t : ℝ) :
    (∀ f, u.period = some f → Planet.period u t = f t) ∧
    (∀ x mu, u.period = none → u.muCentralBody = some (.ok mu) → u.eph t = .ok (spread (some x)) →
      Planet.period u t = .ok (periodFromEnergy x mu)) ∧
    (∀ e mu, u.period = none → u.muCentralBody = some mu → u.eph t = .err e → Planet.period u t = .err e) ∧
    ((∀ f, u.period = some f → f t ≠ .err .notImplemented) → u.eph t ≠ .err .notImplemented →
      u.muCentralBody ≠ some (.err .notImplemented) →
      (Planet.period u t = .err .notImplemented ↔ u.period = none ∧ u.muCentralBody = none)) := by
  unfold Planet.period Planet.eph Planet.getMuCentralBody
  refine ⟨fun f h => by rw [h], fun x mu h1 h2 h3 => ?_, fun e mu h1 h2 h3 => ?_, fun h1 h2 h3 => ?_⟩
  · rw [h1, h2, h3]; rfl
  · rw [h1, h2, h3]; rfl
  · cases hp : u.period with
    | some f => exact ⟨fun h => absurd h (h1 f hp), fun h => absurd h.1 (by simp)⟩
    | none =>
      cases hm : u.muCentralBody with
      | none => simp
      | some r =>
        simp only [Option.getD_some, reduceCtorEq, and_false, iff_false]
        cases he : u.eph t with
        | ok x =>
          cases r with
          | ok m => exact fun h => nomatch h
          | err e => exact fun h => h3 (by rw [hm]; exact congrArg _ (congrArg _ (Res.err.inj h)))
          | ub => exact fun h => nomatch h
        | err e => exact fun h => h2 (by rw [he]; exact congrArg _ (Res.err.inj h))
        | ub => exact fun h => nomatch h

theorem elementsFromPosvel_ne (x : RV ℝ) (mu : ℝ) (el : ElType) : elementsFromPosvel x mu el ≠ .err .notImplemented := by
  unfold elementsFromPosvel
  cases el with
  | kepM => simp only; split <;> exact fun h => nomatch h
  | kepF => exact fun h => nomatch h
  | meq => exact fun h => nomatch h
  | meqR => exact fun h => nomatch h
  | posvel => exact fun h => nomatch h

/-- **C08**: the same for the osculating elements. -/
theorem C08_elements (u : Udpla) (t : ℝ) (el : ElType) :
    (∀ f, u.elements = some f → Planet.elements u t el = f t el) ∧
    (∀ x mu, u.elements = none → u.muCentralBody = some (.ok mu) → u.eph t = .ok (spread (some x)) →
      Planet.elements u t el = elementsFromPosvel x mu el) ∧
    (∀ e mu, u.elements = none → u.muCentralBody = some mu → u.eph t = .err e → Planet.elements u t el = .err e) ∧
    ((∀ f, u.elements = some f → f t el ≠ .err .notImplemented) → u.eph t ≠ .err .notImplemented →
      u.muCentralBody ≠ some (.err .notImplemented) →
      (Planet.elements u t el = .err .notImplemented ↔ u.elements = none ∧ u.muCentralBody = none)) := by
  unfold Planet.elements Planet.eph Planet.getMuCentralBody
  refine ⟨fun f h => by rw [h], fun x mu h1 h2 h3 => ?_, fun e mu h1 h2 h3 => ?_, fun h1 h2 h3 => ?_⟩
  · rw [h1, h2, h3]; rfl
  · rw [h1, h2, h3]; rfl
  · cases hp : u.elements with
    | some f => exact ⟨fun h => absurd h (h1 f hp), fun h => absurd h.1 (by simp)⟩
    | none =>
      cases hm : u.muCentralBody with
      | none => simp
      | some r =>
        simp only [Option.getD_some, reduceCtorEq, and_false, iff_false]
        cases he : u.eph t with
        | ok x =>
          cases r with
          | ok m =>
            simp only [Res.ok_bind]
            cases nums x with
            | some y => exact elementsFromPosvel_ne y m el
            | none => dsimp only; split <;> exact fun h => nomatch h
          | err e => exact fun h => h3 (by rw [hm]; exact congrArg _ (congrArg _ (Res.err.inj h)))
          | ub => exact fun h => nomatch h
        | err e => exact fun h => h2 (by rw [he]; exact congrArg _ (Res.err.inj h))
        | ub => exact fun h => nomatch h

/-- A call with an epoch is the call with its mjd2000. -/
theorem planet_epoch {Ep : Type} (mjd2000 : Ep → ℝ) (u : Udpla) (ep : Ep) (el : ElType) :
    Planet.ephE mjd2000 u ep = Planet.eph u (mjd2000 ep) ∧ Planet.periodE mjd2000 u ep = Planet.period u (mjd2000 ep) ∧
      Planet.elementsE mjd2000 u ep el = Planet.elements u (mjd2000 ep) el := ⟨rfl, rfl, rfl⟩

/-- **C08**: a Python object behaves as a C++ class with the same methods would: the second dispatch, inside
`python_udpla`, gives the same answers as the first. -/
theorem C08_python (o : Udpla) (t : ℝ) (ts : List ℝ) (el : ElType) :
    Planet.getMuCentralBody (pythonUdpla o) = Planet.getMuCentralBody o ∧
    Planet.getMuSelf (pythonUdpla o) = Planet.getMuSelf o ∧ Planet.getRadius (pythonUdpla o) = Planet.getRadius o ∧
    Planet.getSafeRadius (pythonUdpla o) = Planet.getSafeRadius o ∧ Planet.getName (pythonUdpla o) = Planet.getName o ∧
    Planet.getExtraInfo (pythonUdpla o) = Planet.getExtraInfo o ∧ Planet.eph (pythonUdpla o) t = Planet.eph o t ∧
    Planet.ephV (pythonUdpla o) ts = Planet.ephV o ts ∧ Planet.period (pythonUdpla o) t = Planet.period o t ∧
    Planet.elements (pythonUdpla o) t el = Planet.elements o t el := by
  refine ⟨rfl, rfl, rfl, rfl, rfl, rfl, rfl, rfl, ?_, ?_⟩
  · unfold Planet.period pythonUdpla
    cases o.period with
    | some f => rfl
    | none =>
      cases hm : o.muCentralBody with
      | none => rfl
      | some m =>
        dsimp only [Planet.eph, Planet.getMuCentralBody]
        rw [hm]
        rfl
  · unfold Planet.elements pythonUdpla
    cases o.elements with
    | some f => rfl
    | none =>
      cases hm : o.muCentralBody with
      | none => rfl
      | some m =>
        dsimp only [Planet.eph, Planet.getMuCentralBody]
        rw [hm]

/-- The default planet: an ephemeris and nothing else. -/
example : Planet.getMuSelf nullUdpla = .ok (-1) ∧ Planet.period nullUdpla 3 = .err .notImplemented ∧
    Planet.getName (pythonUdpla nullUdpla) = .ok "kep3::detail::null_udpla" := ⟨rfl, rfl, rfl⟩

/-! ## C09 -/

/-- Position and velocity as six numbers in a row. -/
def row {α : Type} (x : RV α) : List α := [x.r.x, x.r.y, x.r.z, x.v.x, x.v.y, x.v.z]

theorem writeRow_append {α : Type} (pre rest : List α) (z : α) (i : Nat) (h : pre.length = 6 * i) (x : RV α) :
    writeRow (pre ++ (List.replicate 6 z ++ rest)) i x = (pre ++ row x) ++ rest := by
  unfold writeRow row
  rw [List.set_append_right _ _ (by omega), show 6 * i - pre.length = 0 by omega,
    List.set_append_right _ _ (by omega), show 6 * i + 1 - pre.length = 1 by omega,
    List.set_append_right _ _ (by omega), show 6 * i + 2 - pre.length = 2 by omega,
    List.set_append_right _ _ (by omega), show 6 * i + 3 - pre.length = 3 by omega,
    List.set_append_right _ _ (by omega), show 6 * i + 4 - pre.length = 4 by omega,
    List.set_append_right _ _ (by omega), show 6 * i + 5 - pre.length = 5 by omega]
  simp [List.replicate]

/-- The loop appends the rows. -/
theorem ephLoop_eq {α : Type} (z : α) (eph : ℝ → Res (RV α)) (ts : List ℝ) (i : Nat) (pre : List α)
    (h : pre.length = 6 * i) : ephLoop eph ts i (pre ++ List.replicate (ts.length * 6) z) =
      (ts.mapM eph >>= fun xs => .ok (pre ++ xs.flatMap row)) := by
  induction ts generalizing i pre with
  | nil => simp [ephLoop]
  | cons t ts ih =>
    rw [ephLoop, List.mapM_cons, bind_assoc]
    cases eph t with
    | ok x =>
      simp only [Res.ok_bind, bind_assoc, Res.pure_eq]
      rw [show (t :: ts).length * 6 = 6 + ts.length * 6 by simp [Nat.succ_mul, Nat.add_comm], List.replicate_add,
        writeRow_append _ _ _ _ h, ih (i + 1) (pre ++ row x) (by simp [row]; omega)]
      cases ts.mapM eph with
      | ok xs => simp [row, List.append_assoc]
      | err e => rfl
      | ub => rfl
    | err e => rfl
    | ub => rfl

theorem mapM_ok_iff {α : Type} (f : ℝ → Res α) (ts : List ℝ) (xs : List α) :
    ts.mapM f = .ok xs ↔ List.Forall₂ (fun t x => f t = .ok x) ts xs := by
  induction ts generalizing xs with
  | nil =>
    simp only [List.mapM_nil, Res.pure_eq, List.forall₂_nil_left_iff]
    exact ⟨fun h => (Res.ok.inj h).symm, fun h => by rw [h]⟩
  | cons t ts ih =>
    rw [List.mapM_cons]
    constructor
    · intro h
      cases h1 : f t with
      | ok y =>
        cases h2 : ts.mapM f with
        | ok zs =>
          rw [h1, h2] at h
          have h : Res.ok (y :: zs) = Res.ok xs := h
          rw [← Res.ok.inj h]
          exact List.Forall₂.cons h1 ((ih zs).1 h2)
        | err e => rw [h1, h2] at h; exact nomatch h
        | ub => rw [h1, h2] at h; exact nomatch h
      | err e => rw [h1] at h; exact nomatch h
      | ub => rw [h1] at h; exact nomatch h
    · rintro (_ | ⟨h1, h2⟩)
      rw [h1, (ih _).2 h2]
      rfl

theorem mapM_err_iff {α : Type} (f : ℝ → Res α) (ts : List ℝ) (e : Exc) :
    ts.mapM f = .err e ↔ ∃ pre t post, ts = pre ++ t :: post ∧ (∀ u ∈ pre, ∃ y, f u = .ok y) ∧ f t = .err e := by
  induction ts with
  | nil =>
    simp only [List.mapM_nil, Res.pure_eq]
    constructor
    · exact fun h => nomatch h
    · rintro ⟨pre, t, post, h, -⟩
      simp at h
  | cons t ts ih =>
    rw [List.mapM_cons]
    cases h1 : f t with
    | ok y =>
      have : (Res.ok y >>= fun a => ts.mapM f >>= fun as => pure (a :: as)) = .err e ↔ ts.mapM f = .err e := by
        cases ts.mapM f with
        | ok zs => exact ⟨fun h => (nomatch h), fun h => (nomatch h)⟩
        | err e' => exact ⟨fun h => congrArg _ (Res.err.inj h), fun h => congrArg _ (Res.err.inj h)⟩
        | ub => exact ⟨fun h => (nomatch h), fun h => (nomatch h)⟩
      rw [this, ih]
      constructor
      · rintro ⟨pre, u, post, h2, h3, h4⟩
        refine ⟨t :: pre, u, post, by rw [h2]; rfl, ?_, h4⟩
        intro w hw
        rcases List.mem_cons.1 hw with rfl | hw
        · exact ⟨y, h1⟩
        · exact h3 w hw
      · rintro ⟨pre, u, post, h2, h3, h4⟩
        rcases pre with _ | ⟨p, pre⟩
        · obtain ⟨rfl, -⟩ := List.cons.inj h2
          rw [h1] at h4; exact nomatch h4
        · obtain ⟨rfl, h5⟩ := List.cons.inj h2
          exact ⟨pre, u, post, h5, fun w hw => h3 w (List.mem_cons_of_mem _ hw), h4⟩
    | err e' =>
      constructor
      · intro h
        have h : e' = e := Res.err.inj h
        exact ⟨[], t, ts, rfl, fun u hu => absurd hu (List.not_mem_nil), by rw [h1, h]⟩
      · rintro ⟨pre, u, post, h2, h3, h4⟩
        rcases pre with _ | ⟨p, pre⟩
        · obtain ⟨rfl, -⟩ := List.cons.inj h2
          rw [h1] at h4; exact congrArg Res.err (Res.err.inj h4)
        · obtain ⟨rfl, -⟩ := List.cons.inj h2
          obtain ⟨y, hy⟩ := h3 t (List.mem_cons_self)
          rw [h1] at hy; exact nomatch hy
    | ub =>
      constructor
      · exact fun h => nomatch h
      · rintro ⟨pre, u, post, h2, h3, h4⟩
        rcases pre with _ | ⟨p, pre⟩
        · obtain ⟨rfl, -⟩ := List.cons.inj h2
          rw [h1] at h4; exact nomatch h4
        · obtain ⟨rfl, -⟩ := List.cons.inj h2
          obtain ⟨y, hy⟩ := h3 t (List.mem_cons_self)
          rw [h1] at hy; exact nomatch hy

theorem ephV_default {u : Udpla} (h : u.ephV = none) (ts : List ℝ) :
    Planet.ephV u ts = (ts.mapM u.eph >>= fun xs => .ok (xs.flatMap row)) := by
  unfold Planet.ephV defaultEphV
  rw [h]
  have := ephLoop_eq (some 0) (Planet.eph u) ts 0 [] rfl
  simp only [List.nil_append] at this
  exact this

theorem flatMap_row_get {α : Type} (xs : List (RV α)) (i k : Nat) (hk : k < 6) :
    (xs.flatMap row)[6 * i + k]? = xs[i]?.bind fun x => (row x)[k]? := by
  induction xs generalizing i with
  | nil => simp
  | cons x xs ih =>
    rw [List.flatMap_cons]
    cases i with
    | zero =>
      rw [List.getElem?_append_left (show 6 * 0 + k < (row x).length by simp [row]; omega)]
      simp
    | succ i =>
      rw [List.getElem?_append_right (by simp [row]; omega)]
      have : 6 * (i + 1) + k - (row x).length = 6 * i + k := by simp [row]; omega
      rw [this, ih]; rfl

/-- **C09**: the default vectorised ephemeris returns six numbers for every epoch, and those at `6 i ... 6 i + 5` are the
position and the velocity that `eph` returns at the i-th epoch. -/
theorem C09_rows {u : Udpla} (h : u.ephV = none) {ts : List ℝ} {out : List (Option ℝ)}
    (ho : Planet.ephV u ts = .ok out) : out.length = 6 * ts.length ∧ ∀ (i : Nat) (hi : i < ts.length),
      ∃ x, Planet.eph u ts[i] = .ok x ∧ out[6 * i]? = some x.r.x ∧ out[6 * i + 1]? = some x.r.y ∧
        out[6 * i + 2]? = some x.r.z ∧ out[6 * i + 3]? = some x.v.x ∧ out[6 * i + 4]? = some x.v.y ∧
        out[6 * i + 5]? = some x.v.z := by
  rw [ephV_default h] at ho
  cases hm : ts.mapM u.eph with
  | ok xs =>
    rw [hm] at ho
    replace ho := Res.ok.inj ho
    have hf := (mapM_ok_iff u.eph ts xs).1 hm
    have hl := hf.length_eq
    subst ho
    constructor
    · rw [hl]
      clear hm hf hl
      induction xs with
      | nil => rfl
      | cons x xs ih => rw [List.flatMap_cons, List.length_append, ih]; simp [row]; omega
    · intro i hi
      have hi' : i < xs.length := hl ▸ hi
      refine ⟨xs[i], hf.get hi hi', ?_, ?_, ?_, ?_, ?_, ?_⟩
      · have := flatMap_row_get xs i 0 (by omega); simpa [row, hi'] using this
      · have := flatMap_row_get xs i 1 (by omega); simpa [row, hi'] using this
      · have := flatMap_row_get xs i 2 (by omega); simpa [row, hi'] using this
      · have := flatMap_row_get xs i 3 (by omega); simpa [row, hi'] using this
      · have := flatMap_row_get xs i 4 (by omega); simpa [row, hi'] using this
      · have := flatMap_row_get xs i 5 (by omega); simpa [row, hi'] using this
  | err e => rw [hm] at ho; exact nomatch ho
  | ub => rw [hm] at ho; exact nomatch ho

/-- **C09**: it fails exactly when one of the scalar calls fails, with the failure of the first one that does. -/
theorem C09_err {u : Udpla} (h : u.ephV = none) (ts : List ℝ) (e : Exc) :
    Planet.ephV u ts = .err e ↔ ∃ pre t post, ts = pre ++ t :: post ∧ (∀ w ∈ pre, ∃ y, Planet.eph u w = .ok y) ∧
      Planet.eph u t = .err e := by
  rw [ephV_default h]
  have := mapM_err_iff u.eph ts e
  unfold Planet.eph
  rw [← this]
  cases ts.mapM u.eph with
  | ok xs => exact ⟨fun h => (nomatch h), fun h => (nomatch h)⟩
  | err e' => exact ⟨fun h => congrArg _ (Res.err.inj h), fun h => congrArg _ (Res.err.inj h)⟩
  | ub => exact ⟨fun h => (nomatch h), fun h => (nomatch h)⟩

/-- **C09**: it succeeds when all the scalar calls succeed. -/
theorem C09_ok {u : Udpla} (h : u.ephV = none) (ts : List ℝ) (hs : ∀ t ∈ ts, ∃ y, Planet.eph u t = .ok y) :
    ∃ out, Planet.ephV u ts = .ok out := by
  rw [ephV_default h]
  suffices ∃ xs, ts.mapM u.eph = .ok xs by
    obtain ⟨xs, hx⟩ := this
    exact ⟨_, by rw [hx]; rfl⟩
  induction ts with
  | nil => exact ⟨[], rfl⟩
  | cons t ts ih =>
    obtain ⟨y, hy⟩ := hs t List.mem_cons_self
    obtain ⟨xs, hx⟩ := ih fun w hw => hs w (List.mem_cons_of_mem _ hw)
    refine ⟨y :: xs, ?_⟩
    rw [List.mapM_cons, hx]
    have hy : u.eph t = .ok y := hy
    rw [hy]; rfl

/-- The default planet, on three epochs. -/
example : ∃ out, Planet.ephV nullUdpla [0, 1, 2] = .ok out ∧ out.length = 18 ∧ out[10]? = some (some 1) := by
  obtain ⟨out, h⟩ := C09_ok (u := nullUdpla) rfl [0, 1, 2] fun t _ => ⟨_, rfl⟩
  have h2 := C09_rows (u := nullUdpla) rfl h
  refine ⟨out, h, h2.1, ?_⟩
  obtain ⟨x, hx, -, -, -, -, h3, -⟩ := h2.2 1 (by simp)
  have := Res.ok.inj hx
  rw [← this] at h3
  exact h3

end Kep3
