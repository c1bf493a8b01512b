import Verif.Text.Parse
/-!
# Names made from configurations: prefixes of frames and names of nodes

(controller_interface/include/controller_interface/tf_prefix.hpp and hardware_interface/src/hardware_component_interface.cpp:123-133.)
-/
namespace Verif
namespace Names

abbrev Text := List Char

/-- `nprefix.replace(pos, 1, node_ns)` at the first '~', if any (tf_prefix.hpp:35-40). -/
def fill (ns : Text) : Text → Text
  | [] => []
  | c :: t => if c = '~' then ns ++ t else c :: fill ns t

/-- "ensure trailing '/'" (tf_prefix.hpp:42-46). -/
def close (t : Text) : Text := if t.getLast? = some '/' then t else t ++ ['/']

/-- "remove leading '/'" (tf_prefix.hpp:47-51). -/
def openUp (t : Text) : Text := if t.head? = some '/' then t.tail else t

/-- `resolve_tf_prefix` (tf_prefix.hpp:28-53); `none` is the undefined behaviour of `back()` of an empty string. -/
def resolve (pre ns : Text) : Option Text :=
  if pre = [] then some []
  else if fill ns pre = [] then none
  else some (openUp (close (fill ns pre)))

/-- The name of the node of a hardware component (hardware_component_interface.cpp:123-125): lower case, '/' becomes '_'. -/
def nodeName (name : Text) : Text := (Text.toLowerCase name).map fun c => if c = '/' then '_' else c

/-- The topic of the status of a component (hardware_component_interface.cpp:176-178, `~/hardware_status` of its node); `ns` is the namespace of the node. -/
def statusTopic (ns name : Text) : Text := (if ns = ['/'] then [] else ns) ++ '/' :: nodeName name ++ "/hardware_status".toList

end Names
end Verif
