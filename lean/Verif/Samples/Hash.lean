import Verif.Samples.Bind
import Verif.Model.Compare
import Verif.Model.Misc
import Verif.Props.Oid

/-!
# Digests in /repo/misc_test.go

The digests here are the ones `TestHash`, /repo/misc_test.go:143-178, expects from `Hash`; they
fix the texts the model gives for eleven values.  They check the reading of the code; no theorem
uses them.  SHA-1 is written down after FIPS 180-4.
-/

namespace Verif.Samples.Hash
open Verif Verif.Attr Verif.Builders Verif.Rules

/-! ## SHA-1 -/

def rotl (x : UInt32) (n : UInt32) : UInt32 := (x <<< n) ||| (x >>> (32 - n))

/-- Four bytes. -/
def be32 (x : UInt32) : Str := ([24, 16, 8, 0] : List UInt32).map fun s => (x >>> s).toUInt8

/-- The padded message, FIPS 180-4 section 5.1.1. -/
def padded (m : Str) : Str :=
  m ++ [0x80] ++ List.replicate ((119 - m.length % 64) % 64) 0 ++ be32 0 ++ be32 (UInt32.ofNat (8 * m.length))

/-- Words of four bytes. -/
def word32 : Str → List UInt32
  | a :: b :: c :: d :: t =>
    ((a.toUInt32 <<< 24) ||| (b.toUInt32 <<< 16) ||| (c.toUInt32 <<< 8) ||| d.toUInt32) :: word32 t
  | _ => []

/-- The message schedule, latest word first. -/
def schedule : Nat → List UInt32 → List UInt32
  | 0, ws => ws
  | n + 1, ws => schedule n
      (rotl ((ws[2]?.getD 0) ^^^ (ws[7]?.getD 0) ^^^ (ws[13]?.getD 0) ^^^ (ws[15]?.getD 0)) 1 :: ws)

/-- The function and the constant of a round. -/
def round (t : Nat) (b c d : UInt32) : UInt32 × UInt32 :=
  if t < 20 then ((b &&& c) ^^^ (~~~b &&& d), 0x5a827999)
  else if t < 40 then (b ^^^ c ^^^ d, 0x6ed9eba1)
  else if t < 60 then ((b &&& c) ^^^ (b &&& d) ^^^ (c &&& d), 0x8f1bbcdc)
  else (b ^^^ c ^^^ d, 0xca62c1d6)

def rounds : Nat → List UInt32 → UInt32 × UInt32 × UInt32 × UInt32 × UInt32 → UInt32 × UInt32 × UInt32 × UInt32 × UInt32
  | _, [], s => s
  | t, w :: ws, (a, b, c, d, e) =>
    rounds (t + 1) ws (rotl a 5 + (round t b c d).1 + e + (round t b c d).2 + w, a, rotl b 30, c, d)

def block (h : UInt32 × UInt32 × UInt32 × UInt32 × UInt32) (ws : List UInt32) :
    UInt32 × UInt32 × UInt32 × UInt32 × UInt32 :=
  let s := rounds 0 (schedule 64 ws.reverse).reverse h
  (h.1 + s.1, h.2.1 + s.2.1, h.2.2.1 + s.2.2.1, h.2.2.2.1 + s.2.2.2.1, h.2.2.2.2 + s.2.2.2.2)

def blocks : Nat → List UInt32 → UInt32 × UInt32 × UInt32 × UInt32 × UInt32 → UInt32 × UInt32 × UInt32 × UInt32 × UInt32
  | 0, _, h => h
  | n + 1, ws, h => blocks n (ws.drop 16) (block h (ws.take 16))

def hexDigit (n : Nat) : UInt8 := UInt8.ofNat (if n < 10 then 48 + n else 55 + n)
def hex (s : Str) : Str := s.flatMap fun x => [hexDigit (x.toNat / 16), hexDigit (x.toNat % 16)]

/-- The digest in upper case hexadecimal digits. -/
def sha1 (m : Str) : Str :=
  let ws := word32 (padded m)
  let h := blocks (ws.length / 16) ws (0x67452301, 0xefcdab89, 0x98badcfe, 0x10325476, 0xc3d2e1f0)
  hex (be32 h.1 ++ be32 h.2.1 ++ be32 h.2.2.1 ++ be32 h.2.2.2.1 ++ be32 h.2.2.2.2)

/-- The sample of FIPS 180. -/
example : sha1 b!"abc" = b!"A9993E364706816ABA3E25717850C26C9CD0D89D" := by decide +kernel
example : sha1 b!"abcdbcdecdefdefgefghfghighijhijkijkljklmklmnlmnomnopnopq" = b!"84983E441C3BD26EBAAE4AA1F95129E5E54670F1" := by
  decide +kernel

/-! ## /repo/misc_test.go:158-168 -/

abbrev eq := EqualFold.ref.eq
abbrev read := Oid.plainReader.read

/-- `Hash` of a text. -/
def hash (s : Str) : Str := match Misc.hashInstance sha1 (.text s) with
  | .ok h => h
  | .error _ => []

def employee : Filter.SearchFilter := Filter.mkFilter b!"(&(objectClass=employee)(cn=Jane Doe))"

example : hash (AttributeType.string (AT b!"squatcobbler")) = b!"93BCF19C9214DCB94C51D48FCC3A9FA02281A41F" := by decide +kernel
example : hash (Filter.SearchFilter.string employee) = b!"1654544702C1F92D67E0C4ACB0798EB0A36D8134" := by decide +kernel
example : hash (Filter.AF [.at_ (AT b!"squatcobbler"), .sf employee]).string =
    b!"3F49EF78318778E87101BFF58E5216092F0BE4DA" := by decide +kernel
example : hash (Str.join b!" || " (TExpr.texts (.oids (((Oid.ExtOps eq read []).push eq read
      [.str b!"1.3.6.1.4.1.56521.999.5"]).push eq read [.str b!"1.3.6.1.4.1.56521.999.4"])))) =
    b!"190572C17D966B0C729FE357535CBB47C27B249B" := by decide +kernel
example : hash (Oid.string (Oid.ExtOp read [.str b!"1.3.6.1.4.1.56521.999.5"])) =
    b!"DA983C2E1EC588345DCF309C31AFBF56B3899FC8" := by decide +kernel
example : hash (DN.BindDN.string (DN.UDN b!"uid=jesse,ou=People,dc=example,dc=com")) =
    b!"7875A6DCADFA0778C7CE2B839801092CF2855FD4" := by decide +kernel
example : hash (Time.TimeOfDay.string (Time.ToD [.str b!"1319"])) = b!"619683DB9EF9D4649743EE1DEDDB3923D6E5F704" := by
  decide +kernel
example : hash (Time.string (.anyRef 8) (Time.DoW [.day Time.Sat, .day Time.Sun])) =
    b!"F195DAC6821622980E970883EFEAA04CDFF8132D" := by decide +kernel
example : hash (Sec.authString Sec.authNames false Sec.EXTERNAL) = b!"6D1A3C16AA5486F9E09BE8476DE15D2E339926F2" := by
  decide +kernel
example : hash (Levels.string (.anyRef 16) (Levels.Inherit
      (userOrGroupAttr BindUAT [.at_ (AT b!"manager"), .av (AV b!"uid=frank,ou=People,dc=example,dc=com")]) [.int 1, .int 3])) =
    b!"38113F5D93F1E10FF5F94788A82C1B22CD82D5C3" := by decide +kernel
example : hash (Levels.string (.anyRef 16) (Levels.Inherit
      (userOrGroupAttr BindGAT [.at_ (AT b!"owner"), .av (AV b!"cn=Executives,ou=Group,dc=example,dc=com")]) [.int 2, .int 8])) =
    b!"E244BC50910AA5AC6B07C9BADF84A111C1A48AEF" := by decide +kernel

end Verif.Samples.Hash
