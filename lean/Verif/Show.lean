import Verif.Value
/-!
`value_t::to_string` (lib_vm/value.cpp), which hosts can use to show values; nothing in the repository calls it.
-/
namespace Ccml

/-- `value_t::to_string`, lib_vm/value.cpp:46-63.  `ptr` is the text `%p` gives for the address of an array, of which
`snprintf` keeps 31 characters; `std::to_string` of a float is `%f` without a limit. -/
def View.show (fl : FloatOps) (ptr : Str) : View → Str
  | .int v => decimal v
  | .float f => fl.fmt f
  | .str s => Ccml.str "\"" ++ cstr s ++ Ccml.str "\""
  | .none => Ccml.str "none"
  | .func v => Ccml.str "function@" ++ decimal v
  | .syscall v => Ccml.str "syscall@" ++ decimal v
  | .arr _ => Ccml.str "array@" ++ ptr.take 31

end Ccml
