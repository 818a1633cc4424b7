import Verif.Host
/-!
`vm_t::reset`: using a machine again.
-/
namespace Ccml
variable {P M : Type}

/-- `vm_t::reset`, lib_vm/vm.cpp:33-41, also called by the destructor (lines 18-20): the collector is made
empty (`fresh`: `value_gc_t::reset`, lib_vm/vm_gc.h:98-103) and all threads are deleted.  The list of
globals `g_` is left as it is: its pointers into the emptied memory stay in it. -/
def VmState.reset (fresh : M) (v : VmState P M) : VmState P M :=
  { mem := fresh, globals := v.globals, threads := [], io := v.io }

end Ccml
