import Verif.Model.Misc
import Verif.Model.Rights
import Verif.Model.Levels
import Verif.Model.Time
import Verif.Model.Net
import Verif.Model.Sec
import Verif.Model.Scope
import Verif.Model.DN

/-!
# The `Compare` methods of the simple value types

Each of them calls `compareHashInstance` (`Verif.Model.Misc`) on the receiver and on
the argument.  What that function sees of a value is decided by `getStringFunc`: the
text of the `String` method, unless reflection calls the value a zero value of its
type, that is the number 0 or a struct whose only field is a nil pointer.

The argument of `Compare` is of type `any`; the model takes one of the type of the
receiver, and `Verif.Misc` has the general case.
-/

namespace Verif.Compare
open Verif Verif.Misc

/-- `getStringFunc`, /repo/misc.go:301-319, for a value of a type with a `String`
method: `zero` tells whether reflection takes it for a zero value. -/
def seen (zero : Bool) (text : Str) : Hashable :=
  if zero then .none else .stringer text

/-- `Right.Compare`, /repo/rights.go:151-153. -/
def right (sha : Str → Str) (r x : Rights.Right) : Bool :=
  compareHashInstance sha (seen (r == 0#16) r.string) (seen (x == 0#16) x.string)

/-- `Permission.Compare`, /repo/rights.go:210-212. -/
def permission (S : Shifty 16) (sha : Str → Str) (r x : Rights.Permission) : Bool :=
  compareHashInstance sha (seen r.isNone (Rights.string S r)) (seen x.isNone (Rights.string S x))

/-- `SearchScope.Compare`, /repo/scope.go:139-141. -/
def scope (sha : Str → Str) (r x : SearchScope) : Bool :=
  compareHashInstance sha (seen (r == 0) r.string) (seen (x == 0) x.string)

/-- `AuthenticationMethod.Compare`, /repo/sec.go:97-99.  The map `authNames` is
iterated once for each text; `low` is the package variable of the letter case. -/
def method (names names' : List (Str × Sec.AuthenticationMethod)) (low : Bool) (sha : Str → Str)
    (r x : Sec.AuthenticationMethod) : Bool :=
  compareHashInstance sha (seen (r == 0) (Sec.authString names low r))
    (seen (x == 0) (Sec.authString names' low x))

/-- `SecurityStrengthFactor.Compare`, /repo/sec.go:218-220. -/
def factor (sha : Str → Str) (r x : Sec.SecurityStrengthFactor) : Bool :=
  compareHashInstance sha (seen r.isNone (Sec.string r)) (seen x.isNone (Sec.string x))

/-- `Level.Compare`, /repo/levels.go:302-304, for the orders in which the map is
iterated. -/
def level (m m' : List (Str × Levels.Level)) (sha : Str → Str) (r x : Levels.Level) : Bool :=
  compareHashInstance sha (seen (r == 0#16) (Levels.levelStringOn m r))
    (seen (x == 0#16) (Levels.levelStringOn m' x))

/-- `Inheritance.Compare`, /repo/levels.go:100-102. -/
def inheritance (S : Shifty 16) (sha : Str → Str) (r x : Levels.Inheritance) : Bool :=
  compareHashInstance sha (seen r.isNone (Levels.string S r)) (seen x.isNone (Levels.string S x))

/-- `IPAddr.Compare`, /repo/net.go:91-93. -/
def addresses (sha : Str → Str) (r x : Net.IPAddr) : Bool :=
  compareHashInstance sha (seen r.isNone r.string) (seen x.isNone x.string)

/-- `FQDN.Compare`, /repo/net.go:46-48. -/
def host (sha : Str → Str) (r x : Net.FQDN) : Bool :=
  compareHashInstance sha (seen r.isNone r.string) (seen x.isNone x.string)

/-- `BindDistinguishedName.Compare`, /repo/dn.go:145-147. -/
def bindDN (sha : Str → Str) (r x : DN.BindDN) : Bool :=
  compareHashInstance sha (seen r.isNone r.string) (seen x.isNone x.string)

/-- `TargetDistinguishedName.Compare`, /repo/dn.go:231-233. -/
def targetDN (sha : Str → Str) (r x : DN.TargetDN) : Bool :=
  compareHashInstance sha (seen r.isNone r.string) (seen x.isNone x.string)

/-- Sets of days and clock times have no `Compare` method; this is the comparison of
what `Hash`, /repo/misc.go:246-248, gives for them. -/
def days (S : Shifty 8) (sha : Str → Str) (r x : Time.DayOfWeek) : Bool :=
  compareHashInstance sha (seen r.isNone (Time.string S r)) (seen x.isNone (Time.string S x))

@[inherit_doc days]
def clock (sha : Str → Str) (r x : Time.TimeOfDay) : Bool :=
  compareHashInstance sha (seen r.isNone r.string) (seen x.isNone x.string)

end Verif.Compare
