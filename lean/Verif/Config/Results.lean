/-!
# Model of lib/fbuild/config/c/__init__.py: what tests return, and the programs that they run

The classes `Function`, `Macro`, `Type`, `IntType`, `Struct` and `Variable` with `==`, `hash` and `repr` (10-126), and `format_test` of
`function_test`, `struct_test` and `variable_test`.  What Python's `hash` makes of a tuple is a parameter.
Left out: `repr` of a text with quotes or other characters that Python escapes.
-/
namespace Verif.Config.Results

abbrev Text := List Char

/-- a type of a parameter or of the value of a function: the text, or a `Function` -/
inductive Ty where
  | text (s : Text)
  | function (ret : Ty) (args : List Ty)

/-- what a test returns -/
inductive Result where
  | function (ret : Ty) (args : List Ty)
  | macro
  | type (alignment size : Int)
  | intType (alignment size : Int) (signed : Bool)
  | struct (members : List (Text × Text))
  | variable

/-! ## Equality -/

/-- `==` of types.  `Function.__eq__` (24-28) looks for `other.size` once the return types are equal, and there is none: `none` is
that `AttributeError`.  A text and a `Function` are different. -/
def tyEq : Ty → Ty → Option Bool
  | .text a, .text b => some (decide (a = b))
  | .function r _, .function r' _ =>
    match tyEq r r' with
    | none => none
    | some false => some false
    | some true => none
  | _, _ => some false

/-- `==` of results (24-28, 39-40, 60-64, 85-90, 108-111, 122-123) -/
def eq : Result → Result → Option Bool
  | .function r as, .function r' as' => tyEq (.function r as) (.function r' as')
  | .macro, .macro => some true
  | .type a s, .type a' s' => some (decide (a = a') && decide (s = s'))
  | .intType a s g, .intType a' s' g' => some (decide (a = a') && decide (s = s') && decide (g = g'))
  | .struct ms, .struct ms' => some (decide (ms = ms'))
  | .variable, .variable => some true
  | _, _ => some false

/-- the tuple that is hashed (30-31, 42-43, 66-67, 92-93, 113-114, 125-126) -/
inductive Key where
  | cls (name : Text)
  | text (s : Text)
  | int (n : Int)
  | bool (b : Bool)
  | tuple (ks : List Key)

mutual
/-- a type in a tuple -/
def Ty.key : Ty → Key
  | .text s => .text s
  | .function r as => .tuple [.cls "Function".toList, r.key, .tuple (Ty.keys as)]
def Ty.keys : List Ty → List Key
  | [] => []
  | t :: ts => t.key :: Ty.keys ts
end

/-- what `__hash__` hashes -/
def key : Result → Key
  | .function r as => .tuple [.cls "Function".toList, r.key, .tuple (Ty.keys as)]
  | .macro => .cls "Macro".toList
  | .type a s => .tuple [.cls "Type".toList, .int a, .int s]
  | .intType a s g => .tuple [.cls "IntType".toList, .int a, .int s, .bool g]
  | .struct ms => .tuple [.cls "Struct".toList, .tuple (ms.map fun m => .tuple [.text m.1, .text m.2])]
  | .variable => .cls "Variable".toList

/-! ## `repr` -/

def commas : List Text → Text
  | [] => []
  | [s] => s
  | s :: t :: l => s ++ ',' :: ' ' :: commas (t :: l)

mutual
/-- `repr` of a type; that of a `Function` is 17-22 -/
def Ty.repr : Ty → Text
  | .text s => '\'' :: s ++ ['\'']
  | .function r as => "Function(".toList ++ r.repr ++ (if as.isEmpty then [] else ',' :: ' ' :: commas (Ty.reprs as)) ++ [')']
def Ty.reprs : List Ty → List Text
  | [] => []
  | t :: ts => t.repr :: Ty.reprs ts
end

/-- the digits of an integer -/
def number (n : Int) : Text := (toString n).toList

/-- `repr` of a boolean -/
def truth (b : Bool) : Text := if b then "True".toList else "False".toList

/-- `repr` of a result (17-22, 36-37, 53-58, 77-83, 102-106, 119-120); `none` is the `NameError` of `Struct.__repr__`, which asks for
`members` instead of `self.members`. -/
def repr : Result → Option Text
  | .function r as => some (Ty.repr (.function r as))
  | .macro => some "Macro()".toList
  | .type a s => some ("Type(".toList ++ commas [number a, number s] ++ [')'])
  | .intType a s g => some ("IntType(".toList ++ commas [number a, number s, truth g] ++ [')'])
  | .struct _ => none
  | .variable => some "Variable()".toList

/-! ## Programs -/

/-- `'' if header is None else '#include <%s>' % header` -/
def includeLine : Option Text → Text
  | none => []
  | some h => "#include <".toList ++ h ++ ['>']

/-- `sep.join(ls)` -/
def join (sep : Text) : List Text → Text
  | [] => []
  | [l] => l
  | l :: m :: ls => l ++ sep ++ join sep (m :: ls)

/-- `'%d' % i` -/
def digits (i : Nat) : Text := (Nat.repr i).toList

/-- `'arg_%d' % i` -/
def argName (i : Nat) : Text := "arg_".toList ++ digits i

/-- `'%s' % t`: a `Function` has no `__str__`, so that it is written as by `repr` -/
def Ty.str : Ty → Text
  | .text s => s
  | t => t.repr

/-- `', '.join(args)` of the types of a `Function`; `none` is a `TypeError` if one is not a text -/
def joinTypes : List Ty → Option Text
  | [] => some []
  | ts => (ts.mapM fun (t : Ty) => match t with
    | .text s => some s
    | .function _ _ => none).map commas

/-- one parameter (312-322): the argument and the definition.  `some none` for `void`. -/
def param (i : Nat) : Ty → Option (Option (Text × Text))
  | .text s => some (if s = "void".toList then none else some (argName i, s ++ ' ' :: argName i ++ [';']))
  | .function r as =>
    match joinTypes as with
    | none => none
    | some l => some (some (r.str ++ " (".toList ++ argName i ++ ")(".toList ++ l ++ [')'], (Ty.function r as).repr ++ ' ' :: argName i ++ [';']))

/-- the loop over the parameters (311-322) -/
def params : Nat → List Ty → Option (List (Text × Text))
  | _, [] => some []
  | i, t :: ts =>
    match param i t, params (i + 1) ts with
    | some none, some ps => some ps
    | some (some p), some ps => some (p :: ps)
    | _, _ => none

/-- `return_type != 'void'` (325): a `Function` is not equal to a text -/
def isVoid : Ty → Bool
  | .text s => decide (s = "void".toList)
  | .function _ _ => false

/-- `format_call` (293-297) and the result (323-326) -/
def callText (name : Text) (ret : Ty) (args : List Text) : Text :=
  (if isVoid ret then [] else ret.str ++ " res = ".toList) ++ name ++ '(' :: commas args ++ [')']

/-- the program: a first line, and the statements of `main`, each on a line -/
def mainProgram (first : Text) (statements : List Text) : Text :=
  '\n' :: first ++ "\nint main() {\n    ".toList ++ join "\n    ".toList statements ++ "\n    return 0;\n}\n".toList

/-- `function_test.format_test` (299-335).  With `default_args` there are no definitions, and an empty line.  `none` is a `TypeError`. -/
def functionProgram (header : Option Text) (name : Text) (ret : Ty) (args : List Ty) (defaults : List Text) : Option Text :=
  if defaults ≠ [] then some (mainProgram (includeLine header) [[], callText name ret defaults ++ [';']])
  else
    match params 0 args with
    | none => none
    | some ps =>
      some (mainProgram (includeLine header) [join "\n    ".toList (ps.map fun p => p.2), callText name ret (ps.map fun p => p.1) ++ [';']])

/-- the definitions of `struct_test` (475-477) -/
def memberDefs : Nat → List (Text × Text) → List Text
  | _, [] => []
  | i, (ty, m) :: ms => (ty ++ ' ' :: argName i ++ " = arg.".toList ++ m ++ [';']) :: memberDefs (i + 1) ms

/-- `struct_test.format_test` (469-486); the name is `struct ` and the attribute, or that given -/
def structProgram (header : Option Text) (name : Text) (members : List (Text × Text)) : Text :=
  mainProgram (includeLine header) [name ++ " arg;".toList, join "\n    ".toList (memberDefs 0 members)]

/-- `variable_test.format_test` (513-525) -/
def variableProgram (header : Option Text) (name : Text) : Text := mainProgram (includeLine header) [name ++ [';']]

end Verif.Config.Results
