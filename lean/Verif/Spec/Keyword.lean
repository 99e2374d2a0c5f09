import Verif.Model.Str

/-!
# Keywords, bind types and operators as documented for ACIv3
-/

namespace Verif.Spec
open Verif

/-- Bind rule keywords. -/
inductive BKw where
  | userdn | roledn | groupdn | userattr | groupattr | ip | dns | dayofweek | timeofday
  | authmethod | ssf
  deriving DecidableEq

def BKw.name : BKw → Str
  | userdn => b!"userdn" | roledn => b!"roledn" | groupdn => b!"groupdn"
  | userattr => b!"userattr" | groupattr => b!"groupattr" | ip => b!"ip" | dns => b!"dns"
  | dayofweek => b!"dayofweek" | timeofday => b!"timeofday" | authmethod => b!"authmethod"
  | ssf => b!"ssf"

/-- Target rule keywords. -/
inductive TKw where
  | target | target_to | targetattr | targetcontrol | target_from | targetscope | targetfilter
  | targattrfilters | extop
  deriving DecidableEq

def TKw.name : TKw → Str
  | target => b!"target" | target_to => b!"target_to" | targetattr => b!"targetattr"
  | targetcontrol => b!"targetcontrol" | target_from => b!"target_from"
  | targetscope => b!"targetscope" | targetfilter => b!"targetfilter"
  | targattrfilters => b!"targattrfilters" | extop => b!"extop"

/-- Bind types. -/
inductive BTy where
  | USERDN | GROUPDN | ROLEDN | SELFDN | LDAPURL
  deriving DecidableEq

def BTy.name : BTy → Str
  | USERDN => b!"USERDN" | GROUPDN => b!"GROUPDN" | ROLEDN => b!"ROLEDN"
  | SELFDN => b!"SELFDN" | LDAPURL => b!"LDAPURL"

/-- Comparison operators. -/
inductive Rel where
  | eq | ne | lt | gt | le | ge
  deriving DecidableEq

/-- Symbol, context name and description of an operator. -/
def Rel.texts : Rel → List Str
  | eq => [b!"=", b!"Eq", b!"Equal To"]
  | ne => [b!"!=", b!"Ne", b!"Not Equal To"]
  | lt => [b!"<", b!"Lt", b!"Less Than"]
  | gt => [b!">", b!"Gt", b!"Greater Than"]
  | le => [b!"<=", b!"Le", b!"Less Than Or Equal"]
  | ge => [b!">=", b!"Ge", b!"Greater Than Or Equal"]

/-- The documented number of an operator. -/
def Rel.number : Rel → Nat
  | eq => 1 | ne => 2 | lt => 3 | gt => 4 | le => 5 | ge => 6

/-- The operators ACIv3 allows with a bind keyword. -/
def BKw.allows : BKw → Rel → Bool
  | timeofday, _ => true
  | ssf, _ => true
  | _, .eq => true
  | _, .ne => true
  | _, _ => false

/-- The operators ACIv3 allows with a target keyword. -/
def TKw.allows : TKw → Rel → Bool
  | _, .eq => true
  | targetscope, _ => false
  | targattrfilters, _ => false
  | _, .ne => true
  | _, _ => false

end Verif.Spec
