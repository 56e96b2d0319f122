import Verif.Model.Basic

set_option autoImplicit false

/-!
# The script tag that starts live reload (hotmeal-server/src/lib.rs)
-/

namespace Hotmeal
namespace Loader

/-- The text of the script element that `loader_script` writes, hotmeal-server/src/lib.rs:269-274: the
arguments are put between quotes as they are. -/
def scriptText (wasmJsUrl wasmUrl mountSelector wsUrl : Str) : Str :=
  "\nimport init, { start_live_reload } from \"".toList ++ wasmJsUrl ++
  "\";\nawait init(\"".toList ++ wasmUrl ++
  "\");\nstart_live_reload(\"".toList ++ wsUrl ++
  "\", \"".toList ++ mountSelector ++
  "\");\n".toList

/-- `loader_script`, hotmeal-server/src/lib.rs:263-276. -/
def loaderScript (wasmJsUrl wasmUrl mountSelector wsUrl : Str) : Str :=
  "<script type=\"module\">".toList ++ scriptText wasmJsUrl wasmUrl mountSelector wsUrl ++ "</script>".toList

end Loader
end Hotmeal
