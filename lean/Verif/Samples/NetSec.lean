import Verif.Samples.Bind

/-!
# Outputs in /repo/net_test.go and /repo/sec_test.go

The values here are the ones the tests of the repository expect.  They check the reading of the
code; no theorem uses them.
-/

namespace Verif.Samples.Net
open Verif Verif.Builders Verif.Net

abbrev text := Samples.Levels.text

/-- `Paren()` before `String()`. -/
def inParens (r : Bind.BRule) : Str := text { r with paren := true }

/-! /repo/net_test.go:8-70 -/
example : FQDN.len (DNS []) = 0 ∧ FQDN.valid (DNS []) = false := by decide +kernel

def www : FQDN := FQDN.set (FQDN.set (FQDN.set (FQDN.set (DNS []) []) [b!""]) [b!"-www-", b!"-example", b!"com-"])
  [b!"www", b!"example", b!"com"]

example : www.string = b!"www.example.com" := by decide +kernel

def absurd : Str := List.replicate 25 101 ++ b!"#eee^" ++ List.replicate 300 101 ++ b!"xample"

example : validLabel absurd = false := by decide +kernel
example : FQDN.string none = b!"<invalid_fqdn_or_label>" := by decide +kernel

def piecewise : FQDN :=
  FQDN.set (FQDN.set (FQDN.set (FQDN.set (FQDN.set (FQDN.set none [b!"www"]) [b!"$&^#*("]) [absurd]) [b!"example"]) [b!""])
    [b!"com"]

example : piecewise.Len = 3 := by decide +kernel
example : ((brm (.anyRef 8) (.fqdn piecewise)).getD []).map (fun e => inParens e.2) =
    [b!"( dns = \"www.example.com\" )", b!"( dns != \"www.example.com\" )"] := by decide +kernel

/-! /repo/net_test.go:72-150 -/
example : (DNS [b!"www.example.com"]).string = b!"www.example.com" := by decide +kernel
example : IPAddr.string none = b!"<invalid_address_list>" := by decide +kernel
example : unique [] b!"192.168.0" = true := by decide +kernel

def four : IPAddr :=
  IPAddr.set (IPAddr.set (IPAddr.set (IPAddr.set none [b!"192.168.0"]) [b!"12.3.45.*"]) [b!"12.3.45.*"]) [b!"10.0.0.0/8"]

example : four.len = 3 ∧ (ipCond Ne' four).isZero = false := by decide +kernel
example : ((brm (.anyRef 8) (.ip four)).getD []).map (fun e => inParens e.2) =
    [b!"( ip = \"192.168.0,12.3.45.*,10.0.0.0/8\" )", b!"( ip != \"192.168.0,12.3.45.*,10.0.0.0/8\" )"] := by decide +kernel

/-! /repo/net_test.go:152-386 -/
example : text (fqdnCond Eq' (FQDN.set (FQDN.set (FQDN.set (DNS []) [b!"www"]) [b!"example"]) [b!"com"])) =
    b!"dns = \"www.example.com\"" := by decide +kernel
example : text (ipCond Eq' (IP [b!"192.168.0", b!"12.3.45.*", b!"10.0.0.0/8"])) =
    b!"ip = \"192.168.0,12.3.45.*,10.0.0.0/8\"" := by decide +kernel
example : (IP [b!"10.0.0.1"]).string = b!"10.0.0.1" ∧ (IP [b!"10.8."]).len = 1 := by decide +kernel
example : IPAddr.valid (IP [b!""]) = false := by decide +kernel
example : text (ipCond Eq' (IPAddr.set (IPAddr.set none [b!"192.8."]) [b!"10.7.0"])) = b!"ip = \"192.8.,10.7.0\"" := by
  decide +kernel
example : text (ipCond Ne' (IPAddr.set none [b!"10.8."])) = b!"ip != \"10.8.\"" := by decide +kernel
example : (FQDN.set (FQDN.set (FQDN.set none [b!"*"]) [b!"example"]) [b!"com"]).string = b!"*.example.com" := by
  decide +kernel
example : text (fqdnCond Eq' (DNS [b!"www", b!"example", b!"com"])) = b!"dns = \"www.example.com\"" := by decide +kernel
example : (DNS [b!"example.com"]).string = b!"example.com" ∧ FQDN.valid (DNS [b!""]) = false ∧
    (DNS [b!"www", b!"example", b!"com"]).string = (DNS [b!"www.example.com"]).string := by decide +kernel
example : BindRuleMethods.contains (brm (.anyRef 8) (.fqdn (FQDN.set none [b!"www.example.com"]))) (.str b!"=") = true ∧
    BindRuleMethods.contains (brm (.anyRef 8) (.ip (IPAddr.set none [b!"192.168.0"]))) (.str b!"=") = true := by
  decide +kernel

end Verif.Samples.Net

namespace Verif.Samples.Sec
open Verif Verif.Builders Verif.Sec

abbrev text := Samples.Levels.text

/-! /repo/sec_test.go:8-75 -/

/-- The factor after `Set` of a number, as the test calls it. -/
def after (n : Nat) : SecurityStrengthFactor := set (set none .null) (.int n)

example : ∀ n ∈ List.range 257, string (after n) = Str.ofNat n ∧ string (set (after n) (.str (Str.ofNat n))) = Str.ofNat n := by
  decide +kernel
example : [OpArg.int 1, .int 2, .int 3, .int 4, .int 5, .int 6].filterMap (fun i =>
    (BindRuleMethods.index (brm (.anyRef 8) (.ssf (after 200))) i).2.map text) =
    [b!"ssf = \"200\"", b!"ssf != \"200\"", b!"ssf < \"200\"", b!"ssf > \"200\"", b!"ssf <= \"200\"", b!"ssf >= \"200\""] := by
  decide +kernel
example : [b!"mAx", b!"full", b!"nOnE", b!"OFF", b!"fart"].map (fun w => string (set (some none) (.str w))) =
    [b!"256", b!"256", b!"0", b!"0", b!"0"] := by decide +kernel

/-! /repo/sec_test.go:77-98 -/
example : ∀ e ∈ authMap, matchAuthenticationMethod authMap authNames (.int e.1) ≠ noAuth ∧
    matchAuthenticationMethod authMap authNames (.str (authString authNames true e.2)) ≠ noAuth := by decide +kernel

/-! /repo/sec_test.go:100-239 -/
example : string (set none (.str b!"noNe")) = b!"0" ∧ string (set none (.str b!"FULL")) = b!"256" ∧
    string (set none (.int 128)) = b!"128" := by decide +kernel
example : [Eq', Ne', Le', Gt', Ge'].map (fun op => Net.inParens (ssfCond op (set none (.int 128)))) =
    [b!"( ssf = \"128\" )", b!"( ssf != \"128\" )", b!"( ssf <= \"128\" )", b!"( ssf > \"128\" )",
     b!"( ssf >= \"128\" )"] := by decide +kernel
example : string (SSF [.int 128]) = b!"128" ∧ string (set (SSF []) (.int 127)) = b!"127" ∧ isZero none = true ∧
    string (SSF [.str b!"101"]) = string (SSF [.int 101]) := by decide +kernel
example : methodsLen (brm (.anyRef 8) (.am Anonymous)) = 2 := by decide +kernel
example : text (amCond Ne' Anonymous) = b!"authmethod != \"NONE\"" ∧ text (amCond Eq' SASL) = b!"authmethod = \"SASL\"" := by
  decide +kernel
example : authString authNames false EXTERNAL = b!"SASL EXTERNAL" := by decide +kernel

end Verif.Samples.Sec
