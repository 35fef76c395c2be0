/-!
# Basic types and the effect monad of the model

Bytes, characters, sizes are natural numbers. Where the C++ type wraps the
definition says so with an explicit `%`.
-/

namespace TW

/-- A `char`/`unsigned char` cell seen as unsigned value (0..255). -/
scoped macro "Byte" : term => `(Nat)

/-- char.hpp:37 `typedef uint32_t UChar` (values below 2^32). -/
scoped macro "UChar" : term => `(Nat)

/-- exception.hpp:24-43 `throws_exception::Cause`. -/
inductive Cause where
  | Unknown | DimOutOfRange | StateNumbersNotAscending | InvalidParamState
  | InvalidParamChar | DuplicateStateTransition | InvalidState | IllegalParam
  | IllegalAttributeName | OutOfMem | ArrayBoundsReadWrite | NotAllowedOperation
  | FileReadError | IllegalXmlHeader | InvalidTagOffset | CorruptTagStack
  | CodePageIndexNotSupported
  deriving DecidableEq, Repr

/-- The ways a C++ call can fail to return normally.
`eom` is the `longjmp` of sourceiterator.hpp:73, `ub` is undefined behaviour,
`throw` is a C++ exception, `fuel` means the bound on loop iterations of the
model was too small to see the call return. -/
inductive Stop where
  | eom
  | ub
  | throw (c : Cause)
  | fuel
  deriving DecidableEq, Repr

/-- Result of a call: a value, or the reason why it did not return. -/
inductive Res (α : Type) where
  | ok (a : α)
  | stop (e : Stop)
  deriving DecidableEq, Repr

/-- Imperative code on an object state `σ`. When the code stops, the state is
what had been written to the object up to then (`longjmp` does not undo it). -/
def M (σ α : Type) : Type := σ → Res α × σ

namespace M

variable {σ τ α β : Type}

def pure (a : α) : M σ α := fun s => (.ok a, s)

def bind (x : M σ α) (f : α → M σ β) : M σ β := fun s =>
  match x s with
  | (.ok a, s') => f a s'
  | (.stop e, s') => (.stop e, s')

instance : Monad (M σ) where
  pure := M.pure
  bind := M.bind

/-- Stop the execution. -/
def stop (e : Stop) : M σ α := fun s => (.stop e, s)

/-- Read the object. -/
def get : M σ σ := fun s => (.ok s, s)

/-- Modify the object. -/
def modify (f : σ → σ) : M σ Unit := fun s => (.ok (), f s)

/-- Run code of a member object. -/
def zoom (get : σ → τ) (set : τ → σ → σ) (x : M τ α) : M σ α := fun s =>
  match x (get s) with
  | (r, t) => (r, set t s)

@[simp] theorem pure_run (a : α) (s : σ) : (Pure.pure a : M σ α) s = (.ok a, s) := rfl
@[simp] theorem pure_run' (a : α) (s : σ) : (M.pure a : M σ α) s = (.ok a, s) := rfl
@[simp] theorem stop_run (e : Stop) (s : σ) : (M.stop e : M σ α) s = (.stop e, s) := rfl
@[simp] theorem get_run (s : σ) : (M.get : M σ σ) s = (.ok s, s) := rfl
@[simp] theorem modify_run (f : σ → σ) (s : σ) : (M.modify f) s = (.ok (), f s) := rfl

theorem bind_run (x : M σ α) (f : α → M σ β) (s : σ) :
    (x >>= f) s = match x s with
      | (.ok a, s') => f a s'
      | (.stop e, s') => (.stop e, s') := rfl

theorem bind_ok {x : M σ α} {f : α → M σ β} {s s' : σ} {a : α}
    (h : x s = (.ok a, s')) : (x >>= f) s = f a s' := by
  rw [bind_run, h]

theorem bind_stop {x : M σ α} {f : α → M σ β} {s s' : σ} {e : Stop}
    (h : x s = (.stop e, s')) : (x >>= f) s = (.stop e, s') := by
  rw [bind_run, h]

theorem seq_ok {x : M σ α} {y : M σ β} {s s' : σ} {a : α}
    (h : x s = (.ok a, s')) : (x >>= fun _ => y) s = y s' := by
  rw [bind_run, h]

end M

/-- char.hpp:49-74 `CharMap<RESTYPE,nullvalue>`: a table of 256 entries, here a
function on the byte. -/
def CharMap (α : Type) := Byte → α

namespace CharMap
variable {α : Type}
/-- char.hpp:60 constructor. -/
def init (null : α) : CharMap α := fun _ => null
/-- char.hpp:65 define an interval. -/
def range (m : CharMap α) (lo hi : Byte) (v : α) : CharMap α :=
  fun i => if lo ≤ i ∧ i ≤ hi then v else m i
/-- char.hpp:69 define one element. -/
def one (m : CharMap α) (at_ : Byte) (v : α) : CharMap α :=
  fun i => if i = at_ then v else m i
end CharMap

/-- char.hpp:78-98 `ControlCharacter`. -/
inductive Cc where
  | Undef | EndOfText | EndOfLine | Cntrl | Space | Amp | Lt | Equal | Gt | Slash
  | Dash | Exclam | Questm | Sq | Dq | Osb | Csb | Any
  deriving DecidableEq, Repr

/-- The enumeration value (char.hpp:80-97). -/
def Cc.toNat : Cc → Nat
  | .Undef => 0 | .EndOfText => 1 | .EndOfLine => 2 | .Cntrl => 3 | .Space => 4
  | .Amp => 5 | .Lt => 6 | .Equal => 7 | .Gt => 8 | .Slash => 9 | .Dash => 10
  | .Exclam => 11 | .Questm => 12 | .Sq => 13 | .Dq => 14 | .Osb => 15 | .Csb => 16
  | .Any => 17

/-- All control characters in enumeration order (char.hpp:78-98). -/
def Cc.all : List Cc :=
  [.Undef, .EndOfText, .EndOfLine, .Cntrl, .Space, .Amp, .Lt, .Equal, .Gt, .Slash,
   .Dash, .Exclam, .Questm, .Sq, .Dq, .Osb, .Csb, .Any]

/-- char.hpp:109 names of the control characters. -/
def Cc.name : Cc → String
  | .Undef => "Undef" | .EndOfText => "EndOfText" | .EndOfLine => "EndOfLine"
  | .Cntrl => "Cntrl" | .Space => "Space" | .Amp => "Amp" | .Lt => "Lt"
  | .Equal => "Equal" | .Gt => "Gt" | .Slash => "Slash" | .Dash => "Dash"
  | .Exclam => "Exclam" | .Questm => "Questm" | .Sq => "Sq" | .Dq => "Dq"
  | .Osb => "Osb" | .Csb => "Csb" | .Any => "Any"

theorem Cc.mem_all (c : Cc) : c ∈ Cc.all := by cases c <;> decide

/-- textscanner.hpp:82-109 `ControlCharMap`, built by the same sequence of
definitions (a later one overrides an earlier one). -/
def controlCharMap : CharMap Cc :=
  (((((((((((((((((((((CharMap.init .Undef)
    |>.one 0 .EndOfText)
    |>.range 1 31 .Cntrl)
    |>.one 5 .Undef)
    |>.range 33 127 .Any)
    |>.range 128 255 .Undef)
    |>.one 9 .Space)
    |>.one 13 .Space)
    |>.one 10 .EndOfLine)
    |>.one 32 .Space)
    |>.one 38 .Amp)
    |>.one 60 .Lt)
    |>.one 61 .Equal)
    |>.one 62 .Gt)
    |>.one 47 .Slash)
    |>.one 45 .Dash)
    |>.one 33 .Exclam)
    |>.one 63 .Questm)
    |>.one 39 .Sq)
    |>.one 34 .Dq)
    |>.one 91 .Osb)
    |>.one 93 .Csb

/-- ASCII bytes of a Lean string literal (used for the string constants of the
code, which are all ASCII). -/
def ascii (s : String) : List Byte := s.toList.map Char.toNat

end TW
