import Verif.Model.Bind

/-!
# The texts of the values of bind rules
-/

namespace Verif.Bind
open Verif

/-- What printing depends on: go-shifty, the iteration order of the map of authentication
methods (/repo/sec.go:83-92), and the setting of their letter case. -/
structure Printing where
  levels : Shifty 16
  days : Shifty 8
  names : List (Str × Sec.AuthenticationMethod)
  low : Bool

/-- The texts of a value: those of the entries of a list (/repo/dn.go:1028-1030, contract of
go-stackage), otherwise that of the `String` method: /repo/dn.go:243-249, /repo/uri.go:307-313,
/repo/levels.go:257-266, /repo/attr.go:277-283, /repo/net.go:238-248 and 391-403,
/repo/time.go:239-255 and 497-510, /repo/sec.go:83-92 and 208-213.  A pair that panics when it is
printed is taken as an empty text. -/
def BExpr.texts (P : Printing) : BExpr → List Str
  | .nil => []
  | .raw _ vs => vs
  | .dns d => d.entries.map DNList.BEntry.string
  | .dn d => [DN.BindDN.string d]
  | .uri u => [u.string]
  | .inh i => [Levels.string P.levels i]
  | .pair a => [a.string.getD []]
  | .ip a => [a.string]
  | .fqdn f => [f.string]
  | .dow d => [Time.string P.days d]
  | .tod t => [t.string]
  | .am a => [Sec.authString P.names P.low a]
  | .ssf s => [Sec.string s]
  | .text s => [s]

end Verif.Bind
