import Verif.Model.Interop
import Verif.Spec.Runtime
/-
What a user of the JavaScript interface sees.
-/
namespace Verif
namespace Interop

/-- A number. -/
def JsVal.nat : JsVal → Option Nat
  | .num n => some n
  | _ => none

/-- `v.get(k)` for a `Map`. -/
def JsVal.get (v k : JsVal) : JsVal :=
  match v with
  | .map l => getEntry k l
  | _ => .undefined

/-- `v[i]` for an array. -/
def JsVal.item (v : JsVal) (i : Nat) : JsVal :=
  match v with
  | .arr l => l[i]?.getD .undefined
  | _ => .undefined

/-- The count of a counter as it is read from JavaScript: `s().get(id)`, `b().get(id)[arm]` and so on. -/
def shown (c : FileCoverage) : Counter → Option Nat
  | .s id => ((getS c).get (.num id)).nat
  | .f id => ((getF c).get (.num id)).nat
  | .b id arm => (((getB c).get (.num id)).item arm).nat
  | .bT id arm => (((getBT c).get (.num id)).item arm).nat

/-- A value that is handed out has what the JSON text has: numbers, strings, arrays and objects as they are, or instead of an object a `Map`
with numbers as keys. Nothing stands for `null`. -/
inductive Depicts : Data → JsVal → Prop where
  | num (n : Nat) : Depicts (.num n) (.num n)
  | str (s : String) : Depicts (.str s) (.str s)
  | arr {l : List Data} {l' : List JsVal} (length : l.length = l'.length)
      (items : ∀ (i : Nat) a b, l[i]? = some a → l'[i]? = some b → Depicts a b) : Depicts (.arr l) (.arr l')
  | obj {l : List (String × Data)} {l' : List (String × JsVal)} (names : l.map (·.1) = l'.map (·.1))
      (members : ∀ (i : Nat) a b, l[i]? = some a → l'[i]? = some b → Depicts a.2 b.2) : Depicts (.obj l) (.obj l')
  | map {l : List (String × Data)} {l' : List (JsVal × JsVal)} {ns : List Nat} (names : l.map (·.1) = ns.map toString)
      (keys : l'.map (·.1) = ns.map .num) (members : ∀ (i : Nat) a b, l[i]? = some a → l'[i]? = some b → Depicts a.2 b.2) :
      Depicts (.obj l) (.map l')

end Interop
end Verif
