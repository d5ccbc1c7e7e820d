import Verif.Spec.History

/-!
# Nested regions in histories
-/

namespace Spec
open Fz

variable {R : Type}

/-- `inside d ks = some d'`: in a region with `d` open inner regions, the calls `ks` leave `d'` of them open
and never close the region itself -/
def inside : Nat → List (Call R) → Option Nat
  | d, [] => some d
  | d, .begin :: ks => inside (d + 1) ks
  | 0, .done :: _ => none
  | d + 1, .done :: ks => inside d ks
  | d, _ :: ks => inside d ks

/-- the content of a region: every region it opens it closes, and nothing else -/
def Balanced (ks : List (Call R)) : Prop := inside 0 ks = some 0

/-- number of open regions after a history, starting with `d`; `end_nested` without open region does
nothing -/
def depth : Nat → List (Call R) → Nat
  | d, [] => d
  | d, .begin :: ks => depth (d + 1) ks
  | d, .done :: ks => depth (d - 1) ks
  | d, _ :: ks => depth d ks

/-- assignment of reals -/
def Call.assigns : Call R → Bool
  | .assign _ _ | .assignArr _ _ | .assignAll _ _ => true
  | _ => false

/-- calls that run over the adjoints of all variables, not only of those of the innermost region -/
def Call.global : Call R → Bool
  | .grad _ | .zeroAll => true
  | _ => false

/-- derivative sweeps and resets of all adjoints -/
def Call.sweeps : Call R → Bool
  | .grad _ | .gradNested _ | .zeroAll => true
  | _ => false

end Spec
