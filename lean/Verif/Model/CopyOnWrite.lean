import Verif.Model.LinkedMap
/-!
# Lists that are shared

Cloning a root object (root_obj.rs:36-46), and so saving it into a history, which keeps a clone in its cache (dochy_cache.rs:94-97), shares
its lists. They are copied when they are first changed.
-/
namespace Verif.LinkedMap

/-- rust_list.rs:108 `MutListVal::list_mut`: `Arc::make_mut` clones the list if it is shared. -/
def LM.listMut {V : Type} (shared : Bool) (m : LM V) : Res (LM V) := if shared then m.clone else .ok m

end Verif.LinkedMap
