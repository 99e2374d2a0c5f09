import Verif.Model.Str

/-!
# Contract of go-stackage

go-stackage is not in the repository.  `Stack.Push` asks the push policy for each
argument and appends the argument when the policy returns nil.  Whether a refused
argument ends the call is not known from the repository, so it is a parameter.
-/

namespace Verif
open Verif

/-- `stackage.Stack.Push` of several arguments: `accept` is the policy on the present
entries (none: error), `stop` tells whether a refused argument ends the call. -/
def stackPush {A E : Type} (stop : Bool) (accept : List E → A → Option E) : List E → List A → List E
  | es, [] => es
  | es, x :: xs =>
    match accept es x with
    | some e => stackPush stop accept (es ++ [e]) xs
    | none => if stop then es else stackPush stop accept es xs

end Verif
