import Verif.Config.Core
import Verif.Naming.Core
/-!
# Names and digests of configuration tests

A test is called as `types.MethodType(descriptor, instance)` (lib/fbuild/db/__init__.py:289,
lib/fbuild/config/c/__init__.py:163): the function is an object, not a Python function.
-/
namespace Verif.Config
open Verif.Naming (Fn Attr)

/-- What `_find_function_name` and `_digest_function` (lib/fbuild/db/database.py:237-291) see of a descriptor: its
`__module__` is that of the class of the descriptor, "fbuild.config.c"; its `__name__` the key; since it is no routine,
`descriptor.__call__` is digested (273-274), of which the text is that of `AbstractFieldDescriptor.__call__`
(config/c/__init__.py:165-200).  What the descriptor tests for is not seen; `code` stands for it. -/
def testFn (callText key : String) (code : Desc → Nat) (d : Desc) : Fn :=
  { module := "fbuild.config.c", name := key, text := callText, captured := code d }

/-- A class of tests as `PersistentMeta.__init__` sees it: the dictionaries of the class and its ancestors with the
tests in them.  `rest` are the other attributes. -/
def testDict (callText : String) (code : Desc → Nat) (tests : List (String × Desc)) : List Attr :=
  tests.map (fun p => ⟨p.1, some (testFn callText p.1 code p.2)⟩)

end Verif.Config
