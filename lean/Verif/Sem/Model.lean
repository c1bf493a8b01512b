import Verif.Num.Dbl
import Mathlib.Data.Rat.Floor
/-!
# Semantic components

`controller_interface/include/controller_interface/helpers.hpp` (`get_ordered_interfaces`) and the semantic components of
`controller_interface/include/semantic_components`.

Names are lists of characters. The references kept by a component are modelled by what they refer to and by the generation of the
controller's vector they point into: the vector is cleared when the controller releases its interfaces
(controller_interface_base.cpp:295-299), and using an older reference is undefined behaviour. The capacity of a vector is
what was reserved. What a handle answers (`get_optional`, `set_value`) is input.
-/
namespace Verif.Sem

abbrev Name := List Char

/-- A loaned interface: its prefix and interface name (handle.hpp:625-626). -/
structure Loan where
  pre : Name
  itf : Name
  deriving DecidableEq, Repr

/-- The full name (handle.hpp:71, 290). -/
def Loan.name (l : Loan) : Name := l.pre ++ '/' :: l.itf

/-- The comparison of a name with an interface (helpers.hpp:67-87). -/
def hits (type n : Name) (l : Loan) : Bool :=
  if type ≠ [] then decide ((n = l.pre ∧ type = l.itf) ∨ n ++ '/' :: type = l.name) else decide (n = l.name)

/-- The two loops of `get_ordered_interfaces` (helpers.hpp:63-87). -/
def collect {α : Type} (view : α → Loan) (ifs : List α) (type : Name) (names : List Name) (out : List α) : List α :=
  names.foldl (fun o n => ifs.foldl (fun o l => if hits type n (view l) then o ++ [l] else o) o) out

/-- `get_ordered_interfaces` (helpers.hpp:50-90): `none` if it throws; `cap` is the capacity of the result. -/
def ordered {α : Type} (view : α → Loan) (cap : Nat) (ifs : List α) (names : List Name) (type : Name) (out : List α) :
    Option (List α × Bool) :=
  if cap < names.length then none
  else some (collect view ifs type names out, decide (names.length = (collect view ifs type names out).length))

/-! ## Sensors that keep an array of values -/

/-- A reference to a loaned interface and the generation of the vector it points into. -/
abbrev Ref := Loan × Nat

/-- A semantic component with an array of values: `slots` are the names of the interfaces of the elements, where they exist
(semantic_component_interface.hpp:26-124; `existing_axes_` and `data_` of force_torque_sensor.hpp:167-169). -/
structure Sensor where
  slots : List (Option Name)
  data : List Dbl
  refs : List Ref := []
  cap : Nat
  deriving DecidableEq, Repr

/-- `interface_names_`. -/
def Sensor.names (s : Sensor) : List Name := s.slots.filterMap id

/-- `assign_loaned_state_interfaces` (semantic_component_interface.hpp:52-57). -/
def Sensor.assign (s : Sensor) (ifs : List Ref) : Option (Sensor × Bool) :=
  (ordered Prod.fst s.cap ifs s.names [] s.refs).map fun p => ({ s with refs := p.1 }, p.2)

/-- `release_interfaces` (semantic_component_interface.hpp:62). -/
def Sensor.release (s : Sensor) : Sensor := { s with refs := [] }

/-- `update_data_from_interfaces` (force_torque_sensor.hpp:149-165; imu_sensor.hpp:123-133, magnetic_field_sensor.hpp:57-67,
pose_sensor.hpp:105-115, where all axes exist). `none`: a reference beyond the end or of a cleared vector is used. -/
def update (gen : Nat) (f : Name → Option Dbl) : List (Option Name) → List Dbl → List Ref → Option (List Dbl)
  | [], _, _ => some []
  | _ :: _, [], _ => some []
  | none :: ss, d :: ds, rs => (update gen f ss ds rs).map (d :: ·)
  | some _ :: _, _ :: _, [] => none
  | some _ :: ss, d :: ds, r :: rs =>
    if r.2 ≠ gen then none else (update gen f ss ds rs).map ((f r.1.name).getD d :: ·)

/-- What happens to a sensor: the controller got interfaces and hands them over; the sensor releases them; the controller's vector
is cleared; the sensor is asked for its values, where `f` gives what the handles answer at that moment. -/
inductive Op
  | assign (ifs : List Loan)
  | release
  | clear
  | read (f : Name → Option Dbl)

/-- The answers. -/
inductive Ans
  | assigned (ok : Bool)
  | threw
  | done
  | values (d : List Dbl)
  | fault
  deriving DecidableEq, Repr

/-- A sensor and the generation of the controller's vector. -/
structure Sys where
  sensor : Sensor
  gen : Nat := 0
  deriving DecidableEq, Repr

/-- One operation (semantic_component_interface.hpp:52-62, controller_interface_base.cpp:295-299, and the `get_…` functions of the sensors). -/
def Sys.step (s : Sys) : Op → Sys × Ans
  | .assign ifs =>
    match s.sensor.assign (ifs.map (·, s.gen)) with
    | none => (s, .threw)
    | some (t, b) => ({ s with sensor := t }, .assigned b)
  | .release => ({ s with sensor := s.sensor.release }, .done)
  | .clear => ({ s with gen := s.gen + 1 }, .done)
  | .read f =>
    match update s.gen f s.sensor.slots s.sensor.data s.sensor.refs with
    | none => (s, .fault)
    | some d => ({ s with sensor := { s.sensor with data := d } }, .values d)

/-- The state after some operations. -/
def Sys.run (s : Sys) : List Op → Sys
  | [] => s
  | o :: os => (s.step o).1.run os

/-- The full name of an element. -/
def full (name : Name) (field : String) : Name := name ++ '/' :: field.toList

/-- `ForceTorqueSensor(name)` (force_torque_sensor.hpp:35-49). -/
def fts (name : Name) : Sensor :=
  { slots := [some (full name "force.x"), some (full name "force.y"), some (full name "force.z"),
      some (full name "torque.x"), some (full name "torque.y"), some (full name "torque.z")]
    data := [.nan, .nan, .nan, .nan, .nan, .nan], cap := 6 }

/-- `check_and_add_interface` (force_torque_sensor.hpp:67-79). -/
def axis (n : Name) : Option Name := if n = [] then none else some n

/-- `ForceTorqueSensor` with the names of the six interfaces, empty where there is none (force_torque_sensor.hpp:60-88). -/
def ftsAxes (fx fy fz tx ty tz : Name) : Sensor :=
  { slots := [axis fx, axis fy, axis fz, axis tx, axis ty, axis tz]
    data := [.nan, .nan, .nan, .nan, .nan, .nan], cap := 6 }

/-- `IMUSensor(name)` (imu_sensor.hpp:31-45, 136). -/
def imu (name : Name) : Sensor :=
  { slots := [some (full name "orientation.x"), some (full name "orientation.y"), some (full name "orientation.z"),
      some (full name "orientation.w"), some (full name "angular_velocity.x"), some (full name "angular_velocity.y"),
      some (full name "angular_velocity.z"), some (full name "linear_acceleration.x"), some (full name "linear_acceleration.y"),
      some (full name "linear_acceleration.z")]
    data := [0, 0, 0, 1, 0, 0, 0, 0, 0, 0], cap := 10 }

/-- `MagneticFieldSensor(name)` (magnetic_field_sensor.hpp:28-33, 72). -/
def mag (name : Name) : Sensor :=
  { slots := [some (full name "magnetic_field.x"), some (full name "magnetic_field.y"), some (full name "magnetic_field.z")]
    data := [0, 0, 0], cap := 3 }

/-- `PoseSensor(name)` (pose_sensor.hpp:34-45, 120). -/
def pose (name : Name) : Sensor :=
  { slots := [some (full name "position.x"), some (full name "position.y"), some (full name "position.z"),
      some (full name "orientation.x"), some (full name "orientation.y"), some (full name "orientation.z"),
      some (full name "orientation.w")]
    data := [0, 0, 0, 1, 0, 0, 0], cap := 7 }

/-- Element `i` of `data_`. -/
def at' (d : List Dbl) (i : Nat) : Dbl := d.getD i .nan

/-- The message of a force-torque sensor (force_torque_sensor.hpp:129-140). -/
def ftsMessage (d : List Dbl) : List (String × Dbl) :=
  [("force.x", at' d 0), ("force.y", at' d 1), ("force.z", at' d 2), ("torque.x", at' d 3), ("torque.y", at' d 4), ("torque.z", at' d 5)]

/-- The message of an IMU (imu_sensor.hpp:97-114). -/
def imuMessage (d : List Dbl) : List (String × Dbl) :=
  [("orientation.x", at' d 0), ("orientation.y", at' d 1), ("orientation.z", at' d 2), ("orientation.w", at' d 3),
    ("angular_velocity.x", at' d 4), ("angular_velocity.y", at' d 5), ("angular_velocity.z", at' d 6),
    ("linear_acceleration.x", at' d 7), ("linear_acceleration.y", at' d 8), ("linear_acceleration.z", at' d 9)]

/-- The message of a magnetic field sensor (magnetic_field_sensor.hpp:41-48). -/
def magMessage (d : List Dbl) : List (String × Dbl) :=
  [("magnetic_field.x", at' d 0), ("magnetic_field.y", at' d 1), ("magnetic_field.z", at' d 2)]

/-- The message of a pose sensor (pose_sensor.hpp:83-96). -/
def poseMessage (d : List Dbl) : List (String × Dbl) :=
  [("position.x", at' d 0), ("position.y", at' d 1), ("position.z", at' d 2), ("orientation.x", at' d 3), ("orientation.y", at' d 4),
    ("orientation.z", at' d 5), ("orientation.w", at' d 6)]

/-! ## Values as a vector -/

/-- A `std::vector<double>`: elements and capacity. -/
structure Buf where
  data : List Dbl
  cap : Nat
  deriving DecidableEq, Repr

/-- `emplace_back`: a full vector doubles its capacity. -/
def Buf.push (b : Buf) (x : Dbl) : Buf :=
  { data := b.data ++ [x], cap := if b.data.length = b.cap then max 1 (2 * b.cap) else b.cap }

/-- The loop of `get_values` (semantic_component_interface.hpp:98-102): `none` if a handle does not answer, which throws
`std::bad_optional_access`. -/
def fill (f : Name → Option Dbl) : List Ref → Buf → Option Buf
  | [], b => some b
  | r :: rs, b => match f r.1.name with
    | none => none
    | some x => fill f rs (b.push x)

/-- `get_values` (semantic_component_interface.hpp:91-104). -/
def getValues (f : Name → Option Dbl) (refs : List Ref) (b : Buf) : Option (Buf × Bool) :=
  if b.cap ≠ refs.length then some (b, false) else (fill f refs b).map (·, true)

/-- `get_state_interface_names` (semantic_component_interface.hpp:74-84) for a component made with a name and a size: the names
are made at the first call; `cap` is the capacity of `interface_names_`. -/
def defaultNames (name : Name) (names : List Name) (cap : Nat) : List Name :=
  if names = [] then (List.range cap).map (fun i => name ++ '/' :: (toString (i + 1)).toList) else names

/-! ## GPS and range sensors -/

/-- `static_cast` of a `double` to an integer type with values from `lo` to `hi`; `none` is undefined behaviour. -/
def castInt (lo hi : Int) : Dbl → Option Int
  | .fin q =>
    let v := if 0 ≤ q then ⌊q⌋ else ⌈q⌉
    if lo ≤ v ∧ v ≤ hi then some v else none
  | _ => none

/-- The answer of the interface at position `i`; the outer `none` is undefined behaviour. -/
def answer (f : Name → Option Dbl) (refs : List Ref) (gen i : Nat) : Option (Option Dbl) :=
  match refs[i]? with
  | none => none
  | some r => if r.2 ≠ gen then none else some (f r.1.name)

/-- `get_status` and `get_service` (gps_sensor.hpp:64-87). -/
def gpsInt (f : Name → Option Dbl) (refs : List Ref) (gen i : Nat) (lo hi : Int) : Option Int :=
  match answer f refs gen i with
  | none => none
  | some none => some hi
  | some (some x) => castInt lo hi x

/-- `get_latitude`, `get_longitude`, `get_altitude` (gps_sensor.hpp:94-132), `get_range` (range_sensor.hpp:39-47, without the rounding to
`float`). -/
def realOf (f : Name → Option Dbl) (refs : List Ref) (gen i : Nat) : Option Dbl :=
  match answer f refs gen i with
  | none => none
  | some none => some .nan
  | some (some x) => some x

/-- `sensor_msgs/NavSatFix`, as far as it is filled. -/
structure Fix where
  status : Int
  service : Int
  latitude : Dbl
  longitude : Dbl
  altitude : Dbl
  deriving DecidableEq, Repr

/-- `GPSSensor(name)` without covariance (gps_sensor.hpp:42-57): the names of its interfaces. -/
def gpsNames (name : Name) : List Name :=
  [full name "status", full name "service", full name "latitude", full name "longitude", full name "altitude"]

/-- `get_values_as_message` of the GPS sensor without covariance (gps_sensor.hpp:168-182). -/
def gpsMessage (f : Name → Option Dbl) (refs : List Ref) (gen : Nat) : Option Fix := do
  let status ← gpsInt f refs gen 0 (-128) 127
  let service ← gpsInt f refs gen 1 0 65535
  let latitude ← realOf f refs gen 2
  let longitude ← realOf f refs gen 3
  let altitude ← realOf f refs gen 4
  return ⟨status, service, latitude, longitude, altitude⟩

/-- `get_covariance` (gps_sensor.hpp:142-160): the diagonal of the matrix, kept from call to call. -/
def gpsCovariance (f : Name → Option Dbl) (refs : List Ref) (gen : Nat) (c : Dbl × Dbl × Dbl) : Option (Dbl × Dbl × Dbl) := do
  let x ← answer f refs gen 5
  let y ← answer f refs gen 6
  let z ← answer f refs gen 7
  return (x.getD c.1, y.getD c.2.1, z.getD c.2.2)

/-- The names added for the covariance (gps_sensor.hpp:50-56). -/
def gpsCovNames (name : Name) : List Name :=
  gpsNames name ++ [full name "latitude_covariance", full name "longitude_covariance", full name "altitude_covariance"]

/-! ## Commands -/

/-- `SemanticComponentCommandInterface::set_values` (semantic_component_command_interface.hpp:77-91): the writes made and the result; `take`
says which interfaces take the value (`set_value`). -/
def setValues (take : Name → Bool) (refs : List Loan) (values : List Dbl) : List (Name × Dbl) × Bool :=
  if values.length ≠ refs.length then ([], false)
  else ((refs.zip values).map (fun p => (p.1.name, p.2)), (refs.zip values).all (fun p => take p.1.name))

/-- Is a part of a colour refused (led_rgb_device.hpp:62-67)? -/
def bad (x : Dbl) : Bool := x.lt 0 || Dbl.lt 1 x

/-- `LedRgbDevice(name, r, g, b)` (led_rgb_device.hpp:40-46): the names of its interfaces. -/
def ledNames (name r g b : Name) : List Name := [name ++ '/' :: r, name ++ '/' :: g, name ++ '/' :: b]

/-- `LedRgbDevice::set_values_from_message` (led_rgb_device.hpp:60-73); `none` is undefined behaviour. -/
def setColour (take : Name → Bool) (refs : List Loan) (r g b : Dbl) : Option (List (Name × Dbl) × Bool) :=
  if bad r || bad g || bad b then some ([], false)
  else match refs with
    | x :: y :: z :: _ => some ([(x.name, r), (y.name, g), (z.name, b)], take x.name && take y.name && take z.name)
    | _ => none

end Verif.Sem
