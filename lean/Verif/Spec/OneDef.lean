import Verif.Model.OneDef
/-!
# Specification: which parts may throw and catch
-/
namespace Eni.Spec
open Link

/-- Which function calls which (Parser.h 44-285). -/
inductive Calls : Fn → Fn → Prop
  | ctor : Calls .caller .ctor
  | start : Calls .ctor .value
  | object : Calls .value .object
  | array : Calls .value .array
  | string : Calls .value .string
  | boolean : Calls .value .boolean
  | number : Calls .value .number
  | noValue : Calls .value .error
  | key : Calls .object .string
  | noKey : Calls .object .error
  | member : Calls .object .value
  | colon : Calls .object .expectC
  | elem : Calls .array .value
  | comma : Calls .array .expectC
  | escape : Calls .string .escape
  | noQuote : Calls .string .error
  | code : Calls .escape .codepoint
  | noEscape : Calls .escape .error
  | noCode : Calls .codepoint .error
  | word : Calls .boolean .expectS
  | noDigit : Calls .number .error
  | noChar : Calls .expectC .error
  | noWord : Calls .expectS .error

/-- `Frame b u p f`: in a program built as `b`, code of `f` that comes from part `p` may run on behalf of a `Parser` declared in part `u`. -/
inductive Frame (b : Build) (u : Nat) : Nat → Fn → Prop
  | caller : Frame b u u .caller
  | call {p f g} : Frame b u p f → Calls f g → Frame b u (b.part p f g) g

/-- Whatever can throw on behalf of a `Parser` declared in part `u` comes from the same part as the handler. -/
def Consistent (b : Build) (u : Nat) : Prop := ∀ p q, Frame b u p .error → Frame b u q .ctor → p = q

end Eni.Spec
