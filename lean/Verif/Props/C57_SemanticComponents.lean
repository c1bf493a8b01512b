import Verif.Sem.Lemmas
/-!
# C57: semantic components

A sensor component reports, for every field of its message, the last value the interface named after that field answered with; a
command component writes every value to the interface it is meant for. `LastAnswer`, `Session`, `Provides` and `wanted` are in Sem/Spec.
-/
namespace Verif.Sem

/-! ## Finding the interfaces -/

/-- **C57.** `get_ordered_interfaces` on different interfaces and an empty result: it returns true exactly if every interface
asked for is there, and then the result consists of the interfaces asked for, in that order. -/
theorem C57_ordered (cap : Nat) (ifs : List Loan) (names : List Name) (type : Name) (hd : (ifs.map Loan.name).Nodup)
    (hcap : names.length ≤ cap) :
    ∃ out b, ordered id cap ifs names type [] = some (out, b) ∧
      (b = true ↔ ∀ n ∈ names, ∃ l ∈ ifs, l.name = wanted type n) ∧
      (b = true → out.map Loan.name = names.map (wanted type)) ∧ (∀ l ∈ out, l ∈ ifs) := by
  have hfl := flat_length id ifs type (by simpa using hd) names
  refine ⟨collect id ifs type names [], decide (names.length = (collect id ifs type names []).length),
    by simp only [ordered, if_neg (not_lt.2 hcap)], ?_, ?_, ?_⟩
  · rw [decide_eq_true_iff, collect_eq, List.nil_append]
    exact hfl.2
  · intro hb
    rw [decide_eq_true_iff, collect_eq, List.nil_append, hfl.2] at hb
    rw [collect_eq, List.nil_append]
    exact flat_names id ifs type (by simpa using hd) names hb
  · intro l hl
    rw [collect_eq, List.nil_append] at hl
    obtain ⟨n, -, hl⟩ := List.mem_flatMap.1 hl
    exact (List.mem_filter.1 hl).1

/-- **C57.** It throws exactly if the result has too little space, before looking at any interface. -/
theorem C57_ordered_throws (cap : Nat) (ifs : List Loan) (names : List Name) (type : Name) (out : List Loan) :
    ordered id cap ifs names type out = none ↔ cap < names.length := by
  unfold ordered
  split <;> simp_all

/-- A joint and its types of interfaces, in any order. -/
example : ordered id 2 [⟨['a'], ['v']⟩, ⟨['b'], ['p']⟩, ⟨['a'], ['p']⟩] [['a'], ['b']] ['p'] [] =
    some ([⟨['a'], ['p']⟩, ⟨['b'], ['p']⟩], true) := by decide

/-- If the controller has an interface twice, another one may be missing although the result is true. -/
theorem C57_ordered_repeated :
    ordered id 2 [⟨['a'], ['p']⟩, ⟨['a'], ['p']⟩] [full ['a'] "p", full ['b'] "p"] [] [] =
      some ([⟨['a'], ['p']⟩, ⟨['a'], ['p']⟩], true) := by decide

/-- Interfaces that were not released stay in front: with one left over, a missing one goes unnoticed. -/
theorem C57_ordered_not_released :
    ordered id 2 [⟨['a'], ['p']⟩] [full ['a'] "p", full ['b'] "p"] [] [⟨['c'], ['p']⟩] =
      some ([⟨['c'], ['p']⟩, ⟨['a'], ['p']⟩], true) := by decide

/-! ## Sensors -/

/-- **C57.** A sensor that is given the interfaces it needs in every session: after any number of sessions, in the middle of another one,
it can be asked at any time, and every element of its array is the last value its interface answered with since the sensor was made
(the initial value if there was none); elements without an interface keep the initial value. -/
theorem C57_sensor (s0 : Sys) (h0 : Fresh s0) (past : List Session) (ifs : List Loan) (reads : List (Name → Option Dbl)) (f : Name → Option Dbl)
    (hpast : ∀ x ∈ past, Provides s0.sensor.names x.ifs) (hifs : Provides s0.sensor.names ifs) :
    ((s0.run (past.flatMap Session.ops)).step (.assign ifs)).2 = .assigned true ∧
    ∃ d, (((s0.run (past.flatMap Session.ops)).run (.assign ifs :: reads.map .read)).step (.read f)).2 = .values d ∧
      d.length = s0.sensor.slots.length ∧
      ∀ (i : Nat) (x : Dbl), s0.sensor.data[i]? = some x →
        (s0.sensor.slots[i]? = some none → d[i]? = some x) ∧
        ∀ n, s0.sensor.slots[i]? = some (some n) → ∃ v, d[i]? = some v ∧ LastAnswer x n (answers past ++ reads ++ [f]) v := by
  have hI : Idle s0 (s0.run (past.flatMap Session.ops)) (answers past) := by
    have := idle_sessions h0 past hpast s0 [] ⟨h0.refs, rfl, rfl, rfl⟩
    simpa using this
  refine ⟨(idle_assign h0 hI hifs).1, ?_⟩
  obtain ⟨hB, h1, h2, h3⟩ := idle_reads h0 hI hifs reads
  rw [step_read hB]
  refine ⟨_, rfl, ?_, ?_⟩
  · rw [updated_length _ _ _ hB.2.2, h1]
  · intro i x hx
    have hu : updated f ((s0.run (past.flatMap Session.ops)).run (.assign ifs :: reads.map .read)).sensor.slots
        ((s0.run (past.flatMap Session.ops)).run (.assign ifs :: reads.map .read)).sensor.data =
        updates s0.sensor.slots s0.sensor.data (answers past ++ reads ++ [f]) := by
      rw [h1, h3, updates_append _ _ (answers past ++ reads) [f]]
      rfl
    rw [hu]
    constructor
    · intro ho
      exact (updates_get _ (answers past ++ reads ++ [f]) _ i x none ho hx).1 rfl
    · intro n ho
      exact ⟨_, (updates_get _ (answers past ++ reads ++ [f]) _ i x _ ho hx).2 n rfl, lastAnswer_foldl n _ x⟩

/-- A kind of sensor named `name` whose message has the fields `fields`, initially `init`: the last answer of `name/field` is reported for
every field, through any number of sessions. -/
def Reports (sensor : Sensor) (message : List Dbl → List (String × Dbl)) (name : Name) (fields : List (String × Dbl)) : Prop :=
  ∀ (past : List Session) (ifs : List Loan) (reads : List (Name → Option Dbl)) (f : Name → Option Dbl),
    (∀ x ∈ past, Provides (fields.map fun p => full name p.1) x.ifs) → Provides (fields.map fun p => full name p.1) ifs →
    (((⟨sensor, 0⟩ : Sys).run (past.flatMap Session.ops)).step (.assign ifs)).2 = .assigned true ∧
    ∃ d, ((((⟨sensor, 0⟩ : Sys).run (past.flatMap Session.ops)).run (.assign ifs :: reads.map .read)).step (.read f)).2 = .values d ∧
      (message d).map Prod.fst = fields.map Prod.fst ∧
      ∀ (i : Nat) (k k' : String) (x v : Dbl), fields[i]? = some (k, x) → (message d)[i]? = some (k', v) →
        LastAnswer x (full name k) (answers past ++ reads ++ [f]) v

theorem reports_of (sensor : Sensor) (message : List Dbl → List (String × Dbl)) (name : Name) (fields : List (String × Dbl))
    (h0 : Fresh ⟨sensor, 0⟩) (hs : sensor.slots = fields.map fun p => some (full name p.1)) (hdata : sensor.data = fields.map Prod.snd)
    (hm : ∀ d : List Dbl, d.length = fields.length → message d = (fields.map Prod.fst).zip d) :
    Reports sensor message name fields := by
  have hnames : sensor.names = fields.map fun p => full name p.1 := by
    unfold Sensor.names
    rw [hs, List.filterMap_map]
    simp
  intro past ifs reads f hpast hifs
  obtain ⟨h1, d, h2, h3, h4⟩ := C57_sensor ⟨sensor, 0⟩ h0 past ifs reads f (by rw [hnames]; exact hpast) (by rw [hnames]; exact hifs)
  have hlen : d.length = fields.length := by rw [h3]; show sensor.slots.length = _; rw [hs]; simp
  refine ⟨h1, d, h2, ?_, ?_⟩
  · rw [hm d hlen, List.map_fst_zip (by simp [hlen])]
  · intro i k k' x v hf hv
    rw [hm d hlen] at hv
    obtain ⟨hd, hv'⟩ : ∃ _ : (fields.map Prod.fst)[i]? = some k', d[i]? = some v := by
      rw [List.getElem?_zip_eq_some] at hv; exact ⟨hv.1, hv.2⟩
    have hx : sensor.data[i]? = some x := by rw [hdata, List.getElem?_map, hf]; rfl
    have ho : sensor.slots[i]? = some (some (full name k)) := by rw [hs, List.getElem?_map, hf]; rfl
    obtain ⟨w, hw, hl⟩ := (h4 i x hx).2 _ ho
    rw [hv'] at hw
    cases hw
    exact hl

/-- **C57.** Force-torque sensor: six values, NaN before the first answer. -/
theorem C57_force_torque (name : Name) : Reports (fts name) ftsMessage name
    [("force.x", .nan), ("force.y", .nan), ("force.z", .nan), ("torque.x", .nan), ("torque.y", .nan), ("torque.z", .nan)] := by
  apply reports_of
  · exact ⟨rfl, rfl, Nat.le_refl _⟩
  · rfl
  · rfl
  · intro d hd
    match d, hd with
    | [a, b, c, e, g, h], _ => rfl

/-- **C57.** IMU: orientation (the identity before the first answer), angular velocity, linear acceleration. -/
theorem C57_imu (name : Name) : Reports (imu name) imuMessage name
    [("orientation.x", 0), ("orientation.y", 0), ("orientation.z", 0), ("orientation.w", 1),
     ("angular_velocity.x", 0), ("angular_velocity.y", 0), ("angular_velocity.z", 0),
     ("linear_acceleration.x", 0), ("linear_acceleration.y", 0), ("linear_acceleration.z", 0)] := by
  apply reports_of
  · exact ⟨rfl, rfl, Nat.le_refl _⟩
  · rfl
  · rfl
  · intro d hd
    match d, hd with
    | [a, b, c, e, g, h, i, j, k, l], _ => rfl

/-- **C57.** Magnetic field sensor. -/
theorem C57_magnetic_field (name : Name) : Reports (mag name) magMessage name
    [("magnetic_field.x", 0), ("magnetic_field.y", 0), ("magnetic_field.z", 0)] := by
  apply reports_of
  · exact ⟨rfl, rfl, Nat.le_refl _⟩
  · rfl
  · rfl
  · intro d hd
    match d, hd with
    | [a, b, c], _ => rfl

/-- **C57.** Pose sensor. Note the initial orientation: `x = 1` and `w = 0`, half a turn and not the identity. -/
theorem C57_pose (name : Name) : Reports (pose name) poseMessage name
    [("position.x", 0), ("position.y", 0), ("position.z", 0),
     ("orientation.x", 1), ("orientation.y", 0), ("orientation.z", 0), ("orientation.w", 0)] := by
  apply reports_of
  · exact ⟨rfl, rfl, Nat.le_refl _⟩
  · rfl
  · rfl
  · intro d hd
    match d, hd with
    | [a, b, c, e, g, h, i], _ => rfl

/-- **C57.** Before the first answer a pose sensor reports half a turn about x, an IMU the identity. -/
theorem C57_pose_initially_turned :
    ("orientation.x", (1 : Dbl)) ∈ poseMessage (pose []).data ∧ ("orientation.w", (0 : Dbl)) ∈ poseMessage (pose []).data ∧
    ("orientation.x", (0 : Dbl)) ∈ imuMessage (imu []).data ∧ ("orientation.w", (1 : Dbl)) ∈ imuMessage (imu []).data := by
  decide +kernel

/-- **C57.** Force-torque sensor with some of the six interfaces, given by their full names: the others are NaN for ever. -/
theorem C57_force_torque_axes (fx fy fz tx ty tz : Name) (past : List Session) (ifs : List Loan) (reads : List (Name → Option Dbl))
    (f : Name → Option Dbl) (hpast : ∀ x ∈ past, Provides ([fx, fy, fz, tx, ty, tz].filter (· ≠ [])) x.ifs)
    (hifs : Provides ([fx, fy, fz, tx, ty, tz].filter (· ≠ [])) ifs) :
    (((⟨ftsAxes fx fy fz tx ty tz, 0⟩ : Sys).run (past.flatMap Session.ops)).step (.assign ifs)).2 = .assigned true ∧
    ∃ d, ((((⟨ftsAxes fx fy fz tx ty tz, 0⟩ : Sys).run (past.flatMap Session.ops)).run (.assign ifs :: reads.map .read)).step (.read f)).2 =
        .values d ∧ d.length = 6 ∧
      ∀ (i : Nat) (n : Name), [fx, fy, fz, tx, ty, tz][i]? = some n →
        (n = [] → d[i]? = some .nan) ∧ (n ≠ [] → ∃ v, d[i]? = some v ∧ LastAnswer .nan n (answers past ++ reads ++ [f]) v) := by
  have hslots : (ftsAxes fx fy fz tx ty tz).slots = [fx, fy, fz, tx, ty, tz].map axis := rfl
  have hnames : (ftsAxes fx fy fz tx ty tz).names = [fx, fy, fz, tx, ty, tz].filter (· ≠ []) := by
    unfold Sensor.names
    rw [hslots, List.filterMap_map]
    generalize [fx, fy, fz, tx, ty, tz] = l
    induction l with
    | nil => rfl
    | cons a l ih =>
      by_cases h : a = []
      · simp [axis, h] at ih ⊢; exact ih
      · simp [axis, h] at ih ⊢; exact ih
  obtain ⟨h1, d, h2, h3, h4⟩ := C57_sensor ⟨ftsAxes fx fy fz tx ty tz, 0⟩ ⟨rfl, rfl, by
    show (ftsAxes fx fy fz tx ty tz).names.length ≤ 6
    rw [hnames]
    exact List.length_filter_le _ _⟩ past ifs reads f (by rw [hnames]; exact hpast) (by rw [hnames]; exact hifs)
  refine ⟨h1, d, h2, h3, ?_⟩
  intro i n hn
  have hlt : i < 6 := (List.getElem?_eq_some_iff.1 hn).1
  have hx : (ftsAxes fx fy fz tx ty tz).data[i]? = some .nan := by
    show (List.replicate 6 Dbl.nan)[i]? = _
    rw [List.getElem?_replicate, if_pos hlt]
  have ho : (ftsAxes fx fy fz tx ty tz).slots[i]? = some (axis n) := by rw [hslots, List.getElem?_map, hn]; rfl
  constructor
  · rintro rfl
    exact (h4 i _ hx).1 (by rw [ho]; rfl)
  · intro hne
    exact (h4 i _ hx).2 n (by rw [ho]; simp [axis, hne])

/-- A session of a force-torque sensor whose interfaces come in another order, one of them not answering. -/
example : (((⟨ftsAxes ['a', '/', 'x'] [] [] [] [] ['a', '/', 'z'], 0⟩ : Sys).run
    [.assign [⟨['a'], ['z']⟩, ⟨['b'], ['x']⟩, ⟨['a'], ['x']⟩], .read (fun n => if n = ['a', '/', 'x'] then some 5 else some 6)]).step
      (.read (fun n => if n = ['a', '/', 'x'] then none else some 7))).2 = .values [5, .nan, .nan, .nan, .nan, 7] := by decide +kernel

example : Provides [full ['a'] "p"] [⟨['b'], ['p']⟩, ⟨['a'], ['p']⟩] := by
  refine ⟨by decide, ?_⟩
  intro n hn
  exact ⟨⟨['a'], ['p']⟩, by decide, by rw [List.mem_singleton.1 hn]; decide⟩

/-- Asking a sensor that has no interfaces, or whose controller has released its own, is undefined behaviour. -/
theorem C57_not_assigned (name : Name) (f : Name → Option Dbl) (ifs : List Loan) :
    ((⟨imu name, 0⟩ : Sys).step (.read f)).2 = .fault ∧
    (Provides (imu name).names ifs → (((⟨imu name, 0⟩ : Sys).run [.assign ifs, .clear]).step (.read f)).2 = .fault) := by
  refine ⟨rfl, ?_⟩
  intro hp
  obtain ⟨refs, b, he, hb, hB⟩ := assign_bound (s := ⟨imu name, 0⟩) rfl rfl (Nat.le_refl _) hp.1
  have hbt : b = true := hb.2 hp.2
  subst hbt
  have hB := hB rfl
  simp only [Sys.run, he]
  have hne : refs.map (fun r => r.1.name) = (imu name).names := hB.1
  match refs, hB, hne with
  | [], _, hne => simp [imu, Sensor.names] at hne
  | r :: rs, hB, _ =>
    have : r.2 = 0 := hB.2.1 r (List.mem_cons_self ..)
    simp [Sys.step, imu, update, this]

/-! ## Values as a vector -/

theorem fill_eq (f : Name → Option Dbl) : ∀ (refs : List Ref) (b : Buf) (vs : List Dbl), refs.map (fun r => f r.1.name) = vs.map some →
    b.data.length + refs.length ≤ b.cap → fill f refs b = some ⟨b.data ++ vs, b.cap⟩
  | [], b, vs, h, _ => by
    have : vs = [] := by simpa using h.symm
    subst this; simp [fill]
  | r :: rs, b, vs, h, hc => by
    match vs, h with
    | v :: vs, h =>
      simp only [List.map_cons, List.cons.injEq] at h
      simp only [List.length_cons] at hc
      have hne : b.data.length ≠ b.cap := by omega
      rw [fill, h.1]
      show fill f rs (b.push v) = _
      rw [fill_eq f rs (b.push v) vs h.2 (by simp [Buf.push, hne]; omega)]
      simp [Buf.push, hne]

/-- **C57.** `get_values` with an empty vector of just the right capacity returns true and the value of every interface, in order; with
any other capacity it returns false and does nothing. -/
theorem C57_get_values (f : Name → Option Dbl) (refs : List Ref) (b : Buf) :
    (b.cap ≠ refs.length → getValues f refs b = some (b, false)) ∧
    (b.cap = refs.length → b.data = [] → ∀ vs : List Dbl, refs.map (fun r => f r.1.name) = vs.map some →
      getValues f refs b = some (⟨vs, b.cap⟩, true)) := by
  constructor
  · intro h; simp [getValues, h]
  · intro h hd vs hv
    have := fill_eq f refs b vs hv (by rw [hd, h]; simp)
    simp [getValues, h, this, hd]

/-- `get_values` throws if a handle does not answer, and called twice with the same vector it returns the values twice. -/
theorem C57_get_values_hazards :
    getValues (fun _ => none) [(⟨['a'], ['p']⟩, 0)] ⟨[], 1⟩ = none ∧
    getValues (fun _ => some 7) [(⟨['a'], ['p']⟩, 0)] ⟨[7], 1⟩ = some (⟨[7, 7], 2⟩, true) := by decide +kernel

/-- **C57.** The default names are `name/1`, `name/2`, … -/
theorem C57_default_names (name : Name) (n : Nat) :
    (defaultNames name [] n).length = n ∧
    ∀ i < n, (defaultNames name [] n)[i]? = some (name ++ '/' :: (toString (i + 1)).toList) := by
  constructor
  · simp [defaultNames]
  · intro i hi
    simp [defaultNames, hi]

/-! ## GPS -/

theorem answer_at (f : Name → Option Dbl) (gen : Nat) (names : List Name) (refs : List Ref)
    (h : refs.map (fun r => r.1.name) = names) (hg : ∀ r ∈ refs, r.2 = gen) (i : Nat) (n : Name) (hi : names[i]? = some n) :
    answer f refs gen i = some (f n) := by
  rw [← h, List.getElem?_map] at hi
  unfold answer
  cases hr : refs[i]? with
  | none => rw [hr] at hi; cases hi
  | some r =>
    rw [hr] at hi
    cases hi
    simp [hg r (List.mem_of_getElem? hr)]

/-- **C57.** GPS sensor: every field is what its interface answers now; NaN, or the largest number, if it does not answer. -/
theorem C57_gps (name : Name) (f : Name → Option Dbl) (gen : Nat) (refs : List Ref)
    (h : refs.map (fun r => r.1.name) = gpsNames name) (hg : ∀ r ∈ refs, r.2 = gen) (m : Fix) (hm : gpsMessage f refs gen = some m) :
    ((f (full name "status") = none ∧ m.status = 127) ∨ ∃ x, f (full name "status") = some x ∧ castInt (-128) 127 x = some m.status) ∧
    ((f (full name "service") = none ∧ m.service = 65535) ∨ ∃ x, f (full name "service") = some x ∧ castInt 0 65535 x = some m.service) ∧
    m.latitude = (f (full name "latitude")).getD .nan ∧ m.longitude = (f (full name "longitude")).getD .nan ∧
    m.altitude = (f (full name "altitude")).getD .nan := by
  have a0 := answer_at f gen _ refs h hg 0 (full name "status") rfl
  have a1 := answer_at f gen _ refs h hg 1 (full name "service") rfl
  have a2 := answer_at f gen _ refs h hg 2 (full name "latitude") rfl
  have a3 := answer_at f gen _ refs h hg 3 (full name "longitude") rfl
  have a4 := answer_at f gen _ refs h hg 4 (full name "altitude") rfl
  have hr : ∀ i n, answer f refs gen i = some (f n) → realOf f refs gen i = some ((f n).getD .nan) := by
    intro i n ha
    unfold realOf
    rw [ha]
    cases f n <;> rfl
  have hi : ∀ i n lo hi v, answer f refs gen i = some (f n) → gpsInt f refs gen i lo hi = some v →
      (f n = none ∧ v = hi) ∨ ∃ x, f n = some x ∧ castInt lo hi x = some v := by
    intro i n lo hi v ha hv
    unfold gpsInt at hv
    rw [ha] at hv
    cases hn : f n with
    | none => rw [hn] at hv; cases hv; exact .inl ⟨rfl, rfl⟩
    | some x => rw [hn] at hv; exact .inr ⟨x, rfl, hv⟩
  unfold gpsMessage at hm
  cases h0 : gpsInt f refs gen 0 (-128) 127 with
  | none => rw [h0] at hm; cases hm
  | some s0 =>
    cases h1 : gpsInt f refs gen 1 0 65535 with
    | none => rw [h0, h1] at hm; cases hm
    | some s1 =>
      rw [h0, h1, hr 2 _ a2, hr 3 _ a3, hr 4 _ a4] at hm
      cases hm
      exact ⟨hi 0 _ _ _ s0 a0 h0, hi 1 _ _ _ s1 a1 h1, rfl, rfl, rfl⟩

/-- **C57.** The diagonal of the covariance of a GPS sensor: what the interfaces answer, else the values before. -/
theorem C57_gps_covariance (name : Name) (f : Name → Option Dbl) (gen : Nat) (refs : List Ref)
    (h : refs.map (fun r => r.1.name) = gpsCovNames name) (hg : ∀ r ∈ refs, r.2 = gen) (c : Dbl × Dbl × Dbl) :
    gpsCovariance f refs gen c = some ((f (full name "latitude_covariance")).getD c.1, (f (full name "longitude_covariance")).getD c.2.1,
      (f (full name "altitude_covariance")).getD c.2.2) := by
  unfold gpsCovariance
  rw [answer_at f gen _ refs h hg 5 (full name "latitude_covariance") rfl,
    answer_at f gen _ refs h hg 6 (full name "longitude_covariance") rfl,
    answer_at f gen _ refs h hg 7 (full name "altitude_covariance") rfl]
  rfl

/-- **C57, whole numbers.** A reading becomes the whole number next to it towards zero, if that is in the range of the message; any other reading
is undefined behaviour. -/
theorem C57_gps_truncates (lo hi : Int) (q : Rat) (v : Int) :
    castInt lo hi (.fin q) = some v ↔ lo ≤ v ∧ v ≤ hi ∧ (0 ≤ q → (v : Rat) ≤ q ∧ q < v + 1) ∧ (q < 0 → (v : Rat) - 1 < q ∧ q ≤ v) := by
  unfold castInt
  dsimp only
  by_cases h : 0 ≤ q
  · rw [if_pos h]
    constructor
    · intro hh
      split at hh
      · rename_i hr
        rw [← Option.some.inj hh]
        exact ⟨hr.1, hr.2, fun _ => ⟨Int.floor_le q, Int.lt_floor_add_one q⟩, fun h' => absurd h' (not_lt.2 h)⟩
      · cases hh
    · rintro ⟨h1, h2, h3, -⟩
      have : ⌊q⌋ = v := Int.floor_eq_iff.2 (h3 h)
      rw [this, if_pos ⟨h1, h2⟩]
  · rw [if_neg h]
    have h : q < 0 := not_le.1 h
    constructor
    · intro hh
      split at hh
      · rename_i hr
        rw [← Option.some.inj hh]
        exact ⟨hr.1, hr.2, fun h' => absurd h' (not_le.2 h), fun _ => ⟨by linarith [Int.ceil_lt_add_one q], Int.le_ceil q⟩⟩
      · cases hh
    · rintro ⟨h1, h2, -, h3⟩
      have : ⌈q⌉ = v := Int.ceil_eq_iff.2 (h3 h)
      rw [this, if_pos ⟨h1, h2⟩]

example : castInt (-128) 127 (.fin (-3 / 2)) = some (-1) ∧ castInt (-128) 127 (.fin (7 / 2)) = some 3 ∧ castInt 0 65535 (.fin (-1)) = none := by
  decide +kernel

/-- **C57, released interfaces.** Reading a message through interfaces that were released, or without interfaces, is undefined. -/
theorem C57_gps_released (f : Name → Option Dbl) (refs : List Ref) (gen i : Nat) (hi : i < 5)
    (h : ∀ r, refs[i]? = some r → r.2 ≠ gen) : gpsMessage f refs gen = none := by
  have key : answer f refs gen i = none := by
    unfold answer
    cases hr : refs[i]? with
    | none => rfl
    | some r => dsimp only; rw [if_pos (h r hr)]
  have h1 : ∀ lo hi, gpsInt f refs gen i lo hi = none := by intro lo hi; unfold gpsInt; rw [key]
  have h2 : realOf f refs gen i = none := by unfold realOf; rw [key]
  unfold gpsMessage
  match i, hi with
  | 0, _ => rw [h1]; rfl
  | 1, _ => rw [h1]; cases gpsInt f refs gen 0 (-128) 127 <;> rfl
  | 2, _ => rw [h2]; cases gpsInt f refs gen 0 (-128) 127 <;> cases gpsInt f refs gen 1 0 65535 <;> rfl
  | 3, _ => rw [h2]; cases gpsInt f refs gen 0 (-128) 127 <;> cases gpsInt f refs gen 1 0 65535 <;> cases realOf f refs gen 2 <;> rfl
  | 4, _ =>
    rw [h2]
    cases gpsInt f refs gen 0 (-128) 127 <;> cases gpsInt f refs gen 1 0 65535 <;> cases realOf f refs gen 2 <;> cases realOf f refs gen 3 <;> rfl

example : gpsMessage (fun _ => some 5) ((gpsNames ['g']).map fun n => (⟨['g'], n.drop 2⟩, 0)) 1 = none := by decide +kernel


/-- Casting the status is undefined behaviour as long as the hardware has not written it: handles start with NaN. -/
theorem C57_gps_status_nan : gpsMessage (fun _ => some .nan) ((gpsNames ['g']).map fun n => (⟨['g'], n.drop 2⟩, 0)) 0 = none := by
  decide +kernel

example : gpsMessage (fun n => if n = full ['g'] "altitude" then none else some 5) ((gpsNames ['g']).map fun n => (⟨['g'], n.drop 2⟩, 0)) 0 =
    some ⟨5, 5, 5, 5, .nan⟩ := by decide +kernel

/-! ## Commands -/

/-- **C57.** `set_values` of the right number writes value `i` to interface `i` and returns true exactly if all were taken; otherwise it
writes nothing and returns false. -/
theorem C57_set_values (take : Name → Bool) (refs : List Loan) (values : List Dbl) :
    (values.length ≠ refs.length → setValues take refs values = ([], false)) ∧
    (values.length = refs.length →
      (setValues take refs values).1.map Prod.fst = refs.map Loan.name ∧ (setValues take refs values).1.map Prod.snd = values ∧
      ((setValues take refs values).2 = true ↔ ∀ l ∈ refs, take l.name = true)) := by
  constructor
  · intro h; simp [setValues, h]
  · intro h
    simp only [setValues, h, ne_eq, not_true_eq_false, if_false]
    refine ⟨?_, ?_, ?_⟩
    · rw [List.map_map]
      have : (Prod.fst ∘ fun p : Loan × Dbl => (p.1.name, p.2)) = Loan.name ∘ Prod.fst := rfl
      rw [this, ← List.map_map, List.map_fst_zip (by omega)]
    · rw [List.map_map]
      have : (Prod.snd ∘ fun p : Loan × Dbl => (p.1.name, p.2)) = Prod.snd := rfl
      rw [this, List.map_snd_zip (by omega)]
    · rw [List.all_eq_true]
      constructor
      · intro hall l hl
        obtain ⟨i, hi, rfl⟩ := List.mem_iff_getElem.1 hl
        have hz : i < (refs.zip values).length := by simp; omega
        have := hall _ (List.getElem_mem hz)
        simpa using this
      · rintro hall ⟨l, v⟩ hp
        exact hall l (List.of_mem_zip hp).1

/-- **C57.** LED: a colour with parts from 0 to 1 is written part by part to the three interfaces; if some part is a number outside, nothing
is written and the result is false. -/
theorem C57_led (take : Name → Bool) (name r g b : Name) (refs : List Loan) (h : refs.map Loan.name = ledNames name r g b) (x y z : Rat) :
    ((0 ≤ x ∧ x ≤ 1) ∧ (0 ≤ y ∧ y ≤ 1) ∧ (0 ≤ z ∧ z ≤ 1) →
      ∃ ok, setColour take refs (.fin x) (.fin y) (.fin z) =
        some ([(name ++ '/' :: r, .fin x), (name ++ '/' :: g, .fin y), (name ++ '/' :: b, .fin z)], ok) ∧
        (ok = true ↔ ∀ n ∈ ledNames name r g b, take n = true)) ∧
    (¬ ((0 ≤ x ∧ x ≤ 1) ∧ (0 ≤ y ∧ y ≤ 1) ∧ (0 ≤ z ∧ z ≤ 1)) →
      setColour take refs (.fin x) (.fin y) (.fin z) = some ([], false)) := by
  have hbad : ∀ q : Rat, bad (.fin q) = true ↔ ¬ (0 ≤ q ∧ q ≤ 1) := by
    intro q
    show (decide (q < (0 : Nat)) || decide (((1 : Nat) : Rat) < q)) = true ↔ _
    simp only [Bool.or_eq_true, decide_eq_true_eq, not_and_or, not_le]
    norm_num
  match refs, h with
  | [], h => simp [ledNames] at h
  | [_], h => simp [ledNames] at h
  | [_, _], h => simp [ledNames] at h
  | _ :: _ :: _ :: _ :: _, h => simp [ledNames] at h
  | [l1, l2, l3], h =>
    simp only [ledNames, List.map_cons, List.map_nil, List.cons.injEq, and_true] at h
    obtain ⟨e1, e2, e3⟩ := h
    constructor
    · rintro ⟨hx, hy, hz⟩
      have b1 : bad (.fin x) = false := by rw [← Bool.not_eq_true, hbad]; exact not_not.2 hx
      have b2 : bad (.fin y) = false := by rw [← Bool.not_eq_true, hbad]; exact not_not.2 hy
      have b3 : bad (.fin z) = false := by rw [← Bool.not_eq_true, hbad]; exact not_not.2 hz
      refine ⟨take (name ++ '/' :: r) && take (name ++ '/' :: g) && take (name ++ '/' :: b), by
        simp only [setColour, b1, b2, b3, Bool.or_false, Bool.false_eq_true, if_false, e1, e2, e3], ?_⟩
      simp [ledNames, and_assoc]
    · intro hn
      have : (bad (.fin x) || bad (.fin y) || bad (.fin z)) = true := by
        simp only [Bool.or_eq_true, hbad]
        tauto
      simp only [setColour, this, if_true]

/-- NaN is not refused: it is written to the device. -/
theorem C57_led_nan : setColour (fun _ => true) [⟨['l'], ['r']⟩, ⟨['l'], ['g']⟩, ⟨['l'], ['b']⟩] .nan 0 0 =
    some ([(['l', '/', 'r'], .nan), (['l', '/', 'g'], 0), (['l', '/', 'b'], 0)], true) := by decide +kernel

/-- If one of the parts is not taken, the others are written all the same. -/
theorem C57_led_partly : setColour (fun n => n ≠ ['l', '/', 'g']) [⟨['l'], ['r']⟩, ⟨['l'], ['g']⟩, ⟨['l'], ['b']⟩] 1 0 1 =
    some ([(['l', '/', 'r'], 1), (['l', '/', 'g'], 0), (['l', '/', 'b'], 1)], false) := by decide +kernel

example : (setValues (fun _ => true) [⟨['l'], ['r']⟩, ⟨['l'], ['g']⟩] [3, 4]) = ([(['l', '/', 'r'], 3), (['l', '/', 'g'], 4)], true) := by decide +kernel

end Verif.Sem
