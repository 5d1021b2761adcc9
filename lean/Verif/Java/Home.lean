import Verif.Java.Core
/-!
# Model of `Java.get_java_home` (lib/fbuild/builders/java.py 77-78, 100-113)

The output of `java -showversion -verbose` is a text.  Left out: output that is not UTF-8, and running the program.
-/
namespace Verif.Java

/-- `stdout.splitlines()` of bytes (107): lines end with a newline, a carriage return, or both; `cur` is the line so far -/
def splitlines : Text → Text → List Text
  | cur, [] => if cur = [] then [] else [cur]
  | cur, '\r' :: '\n' :: s => cur :: splitlines [] s
  | cur, c :: s => if c = '\n' ∨ c = '\r' then cur :: splitlines [] s else splitlines (cur ++ [c]) s

/-- `[Opened ` -/
def litOpened : Text := ['[', 'O', 'p', 'e', 'n', 'e', 'd', ' ']
/-- `/jre/lib` -/
def litJre : Text := ['/', 'j', 'r', 'e', '/', 'l', 'i', 'b']

/-- `(.*?)` before `/jre/lib`: the shortest text -/
def shortest : Text → Option Text
  | [] => none
  | c :: s => if litJre.isPrefixOf (c :: s) then some [] else (shortest s).map (c :: ·)

/-- `_java_home_re.match(line)` (78, 108): the group -/
def homeOf (line : Text) : Option Text := (after litOpened line).bind shortest

/-- `Java.get_java_home` (100-113): the first line that matches -/
def javaHome (stdout : Text) : Option Text := (splitlines [] stdout).findSome? homeOf

end Verif.Java
