import Verif.Model.Ins
import Verif.Spec.PB
import Verif.Spec.Target

/-!
# Instructions
-/

namespace Verif.Ins
open Verif Verif.PB Verif.Rules Verif.Spec

/-- The labels among the arguments of `Set`. -/
def SetArg.labels : SetArg → List Str
  | .str s => [s]
  | _ => []

/-- The target rules among the arguments of `Set`, alone or in lists. -/
def SetArg.targets : SetArg → List TRule
  | .tr t => [t]
  | .trs ts => ts
  | _ => []

/-- The permission bind rules among the arguments of `Set`, alone or in lists. -/
def SetArg.rules : SetArg → List PBRule
  | .pbr r => [r]
  | .pbrs rs => rs
  | _ => []

/-- The first text that is not empty, or the empty one. -/
def firstLabel : List Str → Str
  | [] => []
  | [] :: ls => firstLabel ls
  | (c :: l) :: _ => c :: l

/-- The permission bind rule stands for a complete one: itself. -/
def Whole (x r : PBRule) : Prop := x = r ∧ Complete r

/-- The texts of the instructions are the same up to letter case. -/
def sameIns (w : World) (a b : Instruction) : Bool := w.env.eq (string w a) (string w b)

/-- A call that changes a list. -/
inductive ICall where
  | push (xs : List IArg)
  | pop

def ICall.run (w : World) (rd : Str → Option Instruction) (es : List Instruction) : ICall → List Instruction
  | .push xs => Ins.push w rd es xs
  | .pop => (Ins.pop es).1

end Verif.Ins
