import Verif.Props.Bind
import Verif.Props.Oid

/-!
# Values read in /repo/parse_test.go

Outcomes that the tests of the repository expect from `assertExpressionValue`, run on the
model.  They check the reading of the code; no theorem uses them.
-/

namespace Verif.Samples.Parse
open Verif Verif.Attr Verif.Rules

/-- Whether reading the values of a bind rule gives no error, for `=` and for `!=`;
/repo/parse_test.go:497-523. -/
def bindOk (kw : Str) (vs : List Str) : Bool :=
  [Eq', Ne'].all fun op =>
    match (Bind.BRule.assertValue Bind.plainEnv ⟨⟨true, kw, op⟩, .raw 1 vs, false, false, false⟩) with
    | .ok _ => true
    | _ => false

/-- Whether reading the values of a target rule gives no error; /repo/parse_test.go:680-710. -/
def targetOk (kw : Str) (vs : List Str) : Bool :=
  [Eq', Ne'].all fun op =>
    (TRule.assertValue Str.eqFold Oid.plainReader.read ⟨⟨true, kw, op⟩, .raw 1 vs, false, false⟩).2

/-! /repo/parse_test.go:317-495, `valid` -/
example : [[b!"simple"],
    [b!"none"],
    [b!"sasl"],
    [b!"ssl"],
    [b!"sasl DIGEST-MD5"],
    [b!"sasl GSSAPI"]].all (fun vs => bindOk b!"authmethod" vs == true) = true := by decide +kernel
example : [[b!"0"],
    [b!"1"],
    [b!"50"],
    [b!"71"],
    [b!"128"],
    [b!"164"],
    [b!"256"]].all (fun vs => bindOk b!"ssf" vs == true) = true := by decide +kernel
example : [[b!"192.168.1.100"],
    [b!"10.8.0"],
    [b!"fe80:19da:004a:1212::"],
    [b!"10.8.*"],
    [b!"10.8."],
    [b!"172.16.5"],
    [b!"10"],
    [b!"10.1.*"],
    [b!"2001:47a:ee4::"],
    [b!"2001:47a:*"]].all (fun vs => bindOk b!"ip" vs == true) = true := by decide +kernel
example : [[b!"*.example.com"],
    [b!"www.example.com"],
    [b!"www.*.example.com"],
    [b!"www.example.*"]].all (fun vs => bindOk b!"dns" vs == true) = true := by decide +kernel
example : [[b!"manager#SELFDN"],
    [b!"owner#GROUPDN"],
    [b!"parent[0,1,4].manager#LDAPURL"],
    [b!"parent[1,3].manager#uid=frank,ou=People,dc=example,dc=com"],
    [b!"parent[0].manager#SELFDN"],
    [b!"manager#LDAPURL"],
    [b!"parent[0,1,2,8].manager#USERDN"],
    [b!"ldap:///ou=People,dc=example,dc=com?manager#USERDN"]].all (fun vs => bindOk b!"userattr" vs == true) = true := by decide +kernel
example : [[b!"manager#SELFDN"],
    [b!"owner#GROUPDN"],
    [b!"parent[0,1,4].manager#LDAPURL"],
    [b!"ldap:///ou=People,dc=example,dc=com?manager#USERDN"],
    [b!"parent[1,3].manager#uid=frank,ou=People,dc=example,dc=com"],
    [b!"parent[0].manager#SELFDN"],
    [b!"manager#LDAPURL"],
    [b!"parent[0,1,2,8].manager#USERDN"]].all (fun vs => bindOk b!"groupattr" vs == true) = true := by decide +kernel
example : [[b!"ldap:///ou=People,dc=example,dc=com?cn,sn,givenName,objectClass,uid?one?(&(objectClass=employee)(terminated=FALSE))"],
    [b!"ldap:///dc=example,dc=com??one?(&(objectClass=employee)(cn=*))"],
    [b!"uid=jesse,ou=People,dc=example,dc=com"]].all (fun vs => bindOk b!"userdn" vs == true) = true := by decide +kernel
example : [[b!"ldap:///ou=People,dc=example,dc=com?cn,sn,givenName,objectClass,uid?one?(&(objectClass=employee)(terminated=FALSE))"],
    [b!"ldap:///dc=example,dc=com??one?(&(objectClass=employee)(cn=*))"],
    [b!"uid=jesse,ou=People,dc=example,dc=com"]].all (fun vs => bindOk b!"groupdn" vs == true) = true := by decide +kernel
example : [[b!"ldap:///cn=role,ou=Roles,dc=example,dc=com"]].all (fun vs => bindOk b!"roledn" vs == true) = true := by decide +kernel
example : [[b!"1702"],
    [b!"0001"],
    [b!"0106"],
    [b!"1301"],
    [b!"2359"],
    [b!"0900"]].all (fun vs => bindOk b!"timeofday" vs == true) = true := by decide +kernel
example : [[b!"Mon,Wed"],
    [b!"Tues,Wed"],
    [b!"Sun,Sat"],
    [b!"Fri"],
    [b!"Wed"],
    [b!"Sat,Sun"]].all (fun vs => bindOk b!"dayofweek" vs == true) = true := by decide +kernel

/-! /repo/parse_test.go:317-495, `invalid` -/
example : [[b!"pimple", b!"sample"],
    [b!"noone"],
    [b!"sizzle"],
    [b!"sslssllsll"],
    [b!"sasl INDIGESTION-MD5"],
    [b!"sasl GASSY"],
    [b!""]].all (fun vs => bindOk b!"authmethod" vs == false) = true := by decide +kernel
example : [[b!""],
    [],
    [b!"           i   "]].all (fun vs => bindOk b!"userdn" vs == false) = true := by decide +kernel
example : [[b!""]].all (fun vs => bindOk b!"groupdn" vs == false) = true := by decide +kernel
example : [[b!""]].all (fun vs => bindOk b!"roledn" vs == false) = true := by decide +kernel
example : [[b!""],
    [],
    [b!"           i   "],
    [b!"", b!"ldap:///uid=jesse,ou=People,dc=example,dc=com"],
    [b!"parent[]].manager#USERDN"],
    [b!"parent[55555555]].manager#USERDN"]].all (fun vs => bindOk b!"userattr" vs == false) = true := by decide +kernel
example : [[b!""],
    [],
    [b!"           i   "],
    [b!"", b!"ldap:///uid=jesse,ou=People,dc=example,dc=com"],
    [b!"parent[75].manager#"]].all (fun vs => bindOk b!"groupattr" vs == false) = true := by decide +kernel
example : [[b!"11702"],
    [b!"2500"],
    [b!"2401"],
    [],
    [b!"A", b!""],
    [b!""],
    [b!"A"],
    [b!":)"]].all (fun vs => bindOk b!"timeofday" vs == false) = true := by decide +kernel
example : [[b!"-1"],
    [b!"farts"],
    [b!"^"],
    [b!"257"],
    [b!"512"],
    [],
    [b!"100-"],
    [b!"a"],
    [b!""],
    [b!"X", b!":)"]].all (fun vs => bindOk b!"ssf" vs == false) = true := by decide +kernel
example : [[b!""],
    [b!"Toes"],
    [b!"Sub,Sad", b!"banana"],
    [b!"Fry"],
    [b!"          "],
    [],
    [b!"Wad"],
    [b!"-14"],
    [b!"8"],
    [b!"Sal,Sum"]].all (fun vs => bindOk b!"dayofweek" vs == false) = true := by decide +kernel
example : [[b!""],
    [b!"10?8.0"],
    [b!"."],
    [b!"??", b!"10.1.9/24"],
    [b!"@10.8."],
    [b!"(172.16.5"],
    [b!"z748,"],
    [b!"10.a.*"],
    []].all (fun vs => bindOk b!"ip" vs == false) = true := by decide +kernel
example : [[b!"___"],
    [b!"%al;"],
    [b!"]["],
    [b!"..*"],
    [b!"192.168.*", b!"10/8"],
    []].all (fun vs => bindOk b!"dns" vs == false) = true := by decide +kernel

/-! /repo/parse_test.go:556-680, `valid` -/
example : [[b!"bAse"],
    [b!"one"],
    [b!"sUBtree"],
    [b!"sUBordinaTE"],
    [b!"sub"],
    [b!"onelevel"]].all (fun vs => targetOk b!"targetscope" vs == true) = true := by decide +kernel
example : [[b!"cn", b!"sn", b!"givenName", b!"objectClass", b!"uidNumber", b!"gidNumber", b!"uid", b!"homeDirectory", b!"gecos", b!"description", b!"loginShell"],
    [b!"aci"],
    [b!"cn;lang-jp"],
    [b!"objectclass"],
    [b!"objectClass"]].all (fun vs => targetOk b!"targetattr" vs == true) = true := by decide +kernel
example : [[b!"(&(objectClass=employee)(cn=Jesse Coretta))"],
    [b!"(objectClass=account)"],
    [b!"(&(objectClass=accounting)(terminated=FALSE))"]].all (fun vs => targetOk b!"targetfilter" vs == true) = true := by decide +kernel
example : [[b!"add=homeDirectory:(&(objectClass=employee)(cn=Jesse Coretta)) &&\n\t\t\t\t\tgecos:(|(objectClass=contractor)(objectClass=intern))"],
    [b!"add=homeDirectory:(&(objectClass=employee)(cn=Jesse Coretta)) &&\n\t\t\t\t\t\tgecos:(|(objectClass=contractor)(objectClass=intern)),\n\t\t\t\t\tdelete=uidNumber:(&(objectClass=accounting)(terminated=FALSE)) \t    &&\n\t\t\t\t\t\tgidNumber:(objectClass=account)"],
    [b!"delete=homeDirectory:(&(objectClass=employee)(cn=Jesse Coretta))"],
    [b!"add=homeDirectory:(&(objectClass=employee)(cn=Jesse Coretta)) &&\n\t\t\t\t\t\tgecos:(|(objectClass=contractor)(objectClass=intern));\n\t\t\t\t\tdelete=uidNumber:(&(objectClass=accounting)(terminated=FALSE)) \t    &&\n\t\t\t\t\t\tgidNumber:(objectClass=account)"]].all (fun vs => targetOk b!"targattrfilters" vs == true) = true := by decide +kernel
example : [[b!"1.3.6.1.4.1.56521.999.5", b!"1.3.6.1.4.1.56521.999.100.1"],
    [b!"1.3.6.1.4.1.56521.999.5"]].all (fun vs => targetOk b!"targetcontrol" vs == true) = true := by decide +kernel
example : [[b!"1.3.6.1.4.1.56521.999.5", b!"1.3.6.1.4.1.56521.999.100.1"],
    [b!"1.3.6.1.4.1.56521.999.5"]].all (fun vs => targetOk b!"extop" vs == true) = true := by decide +kernel
example : [[b!"ldap:///ou=People,dc=example,dc=com?cn,sn,givenName,objectClass,uid?one?(&(objectClass=employee)(terminated=FALSE))"],
    [b!"ldap:///cn=*,ou=People,dc=example,dc=com", b!"ldap:///self"],
    [b!"uid=jesse,ou=People,dc=example,dc=com", b!"uid=jimmy,ou=People,dc=example,dc=com"],
    [b!"uid=courtney,ou=People,dc=example,dc=com"],
    [b!"ldap:///ou=People,dc=example,dc=com??one?(&(objectClass=employee)(terminated=FALSE))"],
    [b!"ldap:///anyone", b!"ldap:///parent", b!"ldap:///all"]].all (fun vs => targetOk b!"target" vs == true) = true := by decide +kernel
example : [[b!"ldap:///ou=People,dc=example,dc=com?cn,sn,givenName,objectClass,uid?one?(&(objectClass=employee)(terminated=FALSE))"],
    [b!"ldap:///cn=*,ou=People,dc=example,dc=com", b!"ldap:///self"],
    [b!"uid=jesse,ou=People,dc=example,dc=com", b!"uid=jimmy,ou=People,dc=example,dc=com"],
    [b!"uid=courtney,ou=People,dc=example,dc=com"],
    [b!"ldap:///ou=People,dc=example,dc=com??one?(&(objectClass=employee)(terminated=FALSE))"],
    [b!"ldap:///anyone", b!"ldap:///parent", b!"ldap:///all"]].all (fun vs => targetOk b!"target_to" vs == true) = true := by decide +kernel
example : [[b!"ldap:///ou=People,dc=example,dc=com?cn,sn,givenName,objectClass,uid?one?(&(objectClass=employee)(terminated=FALSE))"],
    [b!"ldap:///cn=*,ou=People,dc=example,dc=com", b!"ldap:///self"],
    [b!"uid=jesse,ou=People,dc=example,dc=com", b!"uid=jimmy,ou=People,dc=example,dc=com"],
    [b!"uid=courtney,ou=People,dc=example,dc=com"],
    [b!"ldap:///ou=People,dc=example,dc=com??one?(&(objectClass=employee)(terminated=FALSE))"],
    [b!"ldap:///anyone", b!"ldap:///parent", b!"ldap:///all"]].all (fun vs => targetOk b!"target_from" vs == true) = true := by decide +kernel

/-! /repo/parse_test.go:556-680, `invalid` -/
example : [[b!"", b!""],
    [b!""],
    []].all (fun vs => targetOk b!"target" vs == false) = true := by decide +kernel
example : [[b!"", b!""],
    [b!""],
    []].all (fun vs => targetOk b!"targetfilter" vs == false) = true := by decide +kernel
example : [[b!"", b!""],
    [b!""],
    [],
    [b!"cn?(objectClass=*)"]].all (fun vs => targetOk b!"targattrfilters" vs == false) = true := by decide +kernel
example : [[b!"", b!""],
    [b!""],
    [],
    [b!"subtrap"],
    [b!"1level"]].all (fun vs => targetOk b!"targetscope" vs == false) = true := by decide +kernel
example : [[b!"", b!""],
    [b!""],
    [],
    [b!"8.b.0.d"]].all (fun vs => targetOk b!"targetcontrol" vs == false) = true := by decide +kernel
example : [[b!"", b!""],
    [b!""],
    [],
    [b!"8.b.0.d"]].all (fun vs => targetOk b!"extop" vs == false) = true := by decide +kernel
example : [[b!"", b!""],
    [b!""],
    [],
    [b!"8cn", b!"", b!"object Class", b!"Uid"]].all (fun vs => targetOk b!"targetattr" vs == false) = true := by decide +kernel
example : [[b!"", b!""],
    [b!""],
    []].all (fun vs => targetOk b!"target_to" vs == false) = true := by decide +kernel
example : [[b!"", b!""],
    [b!""],
    []].all (fun vs => targetOk b!"target_from" vs == false) = true := by decide +kernel

end Verif.Samples.Parse
