import Verif.Config.Core
import Verif.Config.Results
/-!
# The programs of tests for headers, macros and types

`format_test` of `header_test`, `macro_test`, `type_test` and `int_type_test` of lib/fbuild/config/c/__init__.py.  `textwrap.dedent` takes away the margin before the
names are put in.  The programs of functions, structures and variables are in `Config/Results.lean`.
-/
namespace Verif.Config

/-- the end of the programs: `int main() { return 0; }` -/
def emptyMain : Text := "\nint main() {\n    return 0;\n}\n".toList

/-- `header_test.format_test` (241-253) -/
def headerProgram (header : Option Text) (filename : Text) : Text :=
  '\n' :: Results.includeLine header ++ "\n#include <".toList ++ filename ++ ['>'] ++ emptyMain

/-- `macro_test.format_test` (366-380) -/
def macroProgram (header : Option Text) (name : Text) : Text :=
  '\n' :: Results.includeLine header ++ "\n#ifndef ".toList ++ name ++ "\n#error ".toList ++ name ++ " is not defined\n#endif".toList ++
    emptyMain

/-- the begin of the programs for types (396-407, 425-437) -/
def typeStart (header : Option Text) (name : Text) : Text :=
  "\n#include <stddef.h>\n#include <stdio.h>\n".toList ++ Results.includeLine header ++ "\n\ntypedef ".toList ++ name ++
    " type;\nstruct TEST { char c; type mem; };\nint main() {\n    printf(\"%d\\n\", (int)offsetof(struct TEST, mem));\n    printf(\"%d\\n\", (int)sizeof(type));\n".toList

/-- `type_test.format_test` (396-409) -/
def typeProgram (header : Option Text) (name : Text) : Text :=
  typeStart header name ++ "    return 0;\n}\n".toList

/-- `int_type_test.format_test` (425-439) -/
def intTypeProgram (header : Option Text) (name : Text) : Text :=
  typeStart header name ++ "    printf(\"%d\\n\", (type)~3 < (type)0);\n    return 0;\n}\n".toList

/-- `format_test` for a header, macro or type; `other` for the others.  The name of a macro or type is that given, or the key
(`contribute_to_class`, 153-157). -/
def formatTest (other : Desc → Option Text → Text) (d : Desc) (header : Option Text) : Text :=
  match d.kind with
  | .header f => headerProgram header f
  | .macro => macroProgram header (d.name.getD "None".toList)
  | .type => typeProgram header (d.name.getD "None".toList)
  | .intType => intTypeProgram header (d.name.getD "None".toList)
  | _ => other d header

end Verif.Config
