import Verif.Model.Output
import Verif.Proofs.Printer
import Verif.Proofs.Buffers

/-!
# The printer does not look at its output buffer
-/

set_option linter.unusedSectionVars false

namespace TW

namespace Printer

variable {β : Type} [OutBuffer β] {I : β → Prop} {α δ : Type}

/-- `push_back` succeeds for buffers with `I`. -/
def Takes (I : β → Prop) : Prop := ∀ c b, I b → ∃ b', (OutBuffer.push c : M β Unit) b = (.ok (), b') ∧ I b'

/-- The buffer after `push_back` of the bytes. -/
def pushed (bs : List Byte) (b : β) : β := (pushAll bs b).2

theorem pushAll_run (hI : Takes I) (bs : List Byte) : ∀ b, I b → pushAll bs b = (.ok (), pushed bs b) ∧ I (pushed bs b) := by
  induction bs with
  | nil => intro b h; exact ⟨rfl, h⟩
  | cons c bs ih =>
    intro b h
    obtain ⟨b', h1, h2⟩ := hI c b h
    have h3 : pushAll (c :: bs) b = pushAll bs b' := by
      show (OutBuffer.push c >>= fun _ => pushAll bs) b = _
      rw [M.bind_ok h1]
    obtain ⟨h4, h5⟩ := ih b' h2
    unfold pushed
    rw [h3]
    exact ⟨by rw [h4], h5⟩

theorem pushed_append (hI : Takes I) {b : β} (h : I b) (bs cs : List Byte) :
    pushed (bs ++ cs) b = pushed cs (pushed bs b) := by
  induction bs generalizing b with
  | nil => rfl
  | cons c bs ih =>
    obtain ⟨b', h1, h2⟩ := hI c b h
    have h3 : ∀ ds, pushed (c :: ds) b = pushed ds b' := by
      intro ds
      unfold pushed
      show ((OutBuffer.push c >>= fun _ => pushAll ds) b).2 = _
      rw [M.bind_ok h1]
    rw [List.cons_append, h3, h3, ih h2]

/-- The printer with the buffer `b` that has got the bytes of the string. -/
def over (b : β) (s : Printer) : PrinterTo β := s.withBuf (pushed s.buf b)

/-- The result of a call with the string in place of the buffer. -/
def overR (b : β) (x : Res α × Printer) : Res α × PrinterTo β := (x.1, over b x.2)

/-- `x` does for the buffer what `y` does for a string. -/
def ParAt (b : β) (s : Printer) (x : M (PrinterTo β) α) (y : M Printer α) : Prop := x (over b s) = overR b (y s)

variable {b : β} {s : Printer}

theorem ParAt.pure (a : α) : ParAt b s (Pure.pure a) (Pure.pure a) := rfl

theorem ParAt.stop (e : Stop) : ParAt b s (M.stop e : M (PrinterTo β) α) (M.stop e) := rfl

theorem ParAt.bind {x : M (PrinterTo β) α} {y : M Printer α} {k : α → M (PrinterTo β) δ} {l : α → M Printer δ}
    (h : ParAt b s x y) (hk : ∀ a s', y s = (.ok a, s') → ParAt b s' (k a) (l a)) :
    ParAt b s (x >>= k) (y >>= l) := by
  unfold ParAt at h ⊢
  rcases hy : y s with ⟨r, s'⟩
  rw [hy] at h
  cases r with
  | ok a => rw [M.bind_ok h, M.bind_ok hy]; exact hk a s' hy
  | stop e => rw [M.bind_stop h, M.bind_stop hy]; rfl

theorem ParAt.get {k : PrinterTo β → M (PrinterTo β) δ} {l : Printer → M Printer δ} (h : ParAt b s (k (over b s)) (l s)) :
    ParAt b s (M.get >>= k) (M.get >>= l) := h

theorem ParAt.modify {f : PrinterTo β → PrinterTo β} {g : Printer → Printer} (h : f (over b s) = over b (g s)) :
    ParAt b s (M.modify f) (M.modify g) := by
  unfold ParAt
  rw [M.modify_run, M.modify_run, h]; rfl

theorem ParAt.ite {p : Prop} [Decidable p] {x x' : M (PrinterTo β) α} {y y' : M Printer α} (h : ParAt b s x y)
    (h' : ParAt b s x' y') : ParAt b s (if p then x else x') (if p then y else y') := by
  split
  · exact h
  · exact h'

section

variable (hI : Takes I) (hb : I b)
include hI hb

theorem par_emit (bs : List Byte) : ParAt b s (emit bs) (emit bs) := by
  unfold ParAt
  rw [emit_run]
  unfold emit M.zoom
  obtain ⟨h1, h2⟩ := pushAll_run hI s.buf b hb
  have h3 := (pushAll_run hI bs _ h2).1
  show (match pushAll bs (pushed s.buf b) with | (r, t) => (r, ({ over b s with buf := t } : PrinterTo β))) = _
  rw [h3, ← pushed_append hI hb]
  rfl

theorem par_printChars (g : UChar → List Byte) (src : List Byte) : ParAt b s (printChars g src) (printChars g src) := by
  refine .get ?_
  show ParAt b s (match (printLoop g (src.length + 1) (TextScanner.mk' s.app (CStr.mk' src))).1 with
    | .ok bs => emit bs
    | .stop e => M.stop e) _
  generalize (printLoop g (src.length + 1) (TextScanner.mk' s.app (CStr.mk' src))).1 = x
  cases x with
  | ok bs => exact par_emit hI hb bs
  | stop e => exact .stop e

theorem par_printToBuffer (src : List Byte) : ParAt b s (printToBuffer src) (printToBuffer src) :=
  .get (par_printChars hI hb _ src)

theorem par_printChar (c : Byte) : ParAt b s (printChar c) (printChar c) := .get (par_emit hI hb _)

theorem par_printSubst (tab : List (Byte × List Byte)) (src : List Byte) :
    ParAt b s (printSubst tab src) (printSubst tab src) := .get (par_printChars hI hb _ src)

theorem par_enter (st : PrintState) : ParAt b s (enter st) (enter st) := by
  refine ParAt.bind (ParAt.modify ?_) fun _ _ _ => .pure true
  rfl

theorem par_fail (m : String) : ParAt b s (fail m) (fail m) := by
  refine ParAt.bind (ParAt.modify ?_) fun _ _ _ => .pure false
  rfl

theorem par_onStack (x : M TagStack α) : ParAt b s (onStack x) (onStack x) := by
  unfold ParAt onStack M.zoom
  show (match x s.tagstack with | (r, t) => (r, ({ over b s with tagstack := t } : PrinterTo β))) = _
  rcases x s.tagstack with ⟨r, t⟩
  rfl

theorem par_header (e sa : Option (List Byte)) : ParAt b s (printHeader e sa) (printHeader e sa) := by
  refine .get (ParAt.ite (p := s.state ≠ .Init) (par_fail hI hb _) ?_)
  refine (par_printToBuffer hI hb _).bind fun _ _ _ => (par_printToBuffer hI hb _).bind fun _ _ _ => ?_
  refine ParAt.bind ?_ fun _ _ _ => par_enter hI hb _
  cases sa with
  | none => exact par_printToBuffer hI hb _
  | some sa =>
    exact (par_printToBuffer hI hb _).bind fun _ _ _ => (par_printToBuffer hI hb _).bind fun _ _ _ =>
      par_printToBuffer hI hb _

theorem par_doctype (r p y : Option (List Byte)) : ParAt b s (printDoctype r p y) (printDoctype r p y) := by
  cases r with
  | none => exact .pure true
  | some r =>
    cases p with
    | none =>
      cases y with
      | none =>
        exact (par_printToBuffer hI hb _).bind fun _ _ _ => (par_printToBuffer hI hb _).bind fun _ _ _ =>
          (par_printToBuffer hI hb _).bind fun _ _ _ => .pure true
      | some y =>
        exact (par_printToBuffer hI hb _).bind fun _ _ _ => (par_printToBuffer hI hb _).bind fun _ _ _ =>
          (par_printToBuffer hI hb _).bind fun _ _ _ => (par_printToBuffer hI hb _).bind fun _ _ _ =>
          (par_printToBuffer hI hb _).bind fun _ _ _ => .pure true
    | some p =>
      cases y with
      | none => exact par_fail hI hb _
      | some y =>
        exact (par_printToBuffer hI hb _).bind fun _ _ _ => (par_printToBuffer hI hb _).bind fun _ _ _ =>
          (par_printToBuffer hI hb _).bind fun _ _ _ => (par_printToBuffer hI hb _).bind fun _ _ _ =>
          (par_printToBuffer hI hb _).bind fun _ _ _ => (par_printToBuffer hI hb _).bind fun _ _ _ =>
          (par_printToBuffer hI hb _).bind fun _ _ _ => .pure true

theorem par_exit : ParAt b s exitTagContext exitTagContext := by
  refine .get ?_
  have hs : (over b s).state = s.state := rfl
  rw [hs]
  cases s.state with
  | Content => exact .pure true
  | Init => exact par_fail hI hb _
  | TagAttribute => exact (par_printChar hI hb _).bind fun _ _ _ => par_enter hI hb _
  | TagElement => exact (par_printChar hI hb _).bind fun _ _ _ => par_enter hI hb _

theorem par_open (limit : Nat) (n : List Byte) : ParAt b s (printOpenTag limit n) (printOpenTag limit n) := by
  refine (par_exit hI hb).bind fun r _ _ => ParAt.ite (.pure false) ?_
  exact (par_printChar hI hb _).bind fun _ _ _ => (par_printToBuffer hI hb _).bind fun _ _ _ =>
    (par_onStack hI hb _).bind fun _ _ _ => par_enter hI hb _

theorem par_attr (n : List Byte) : ParAt b s (printAttribute n) (printAttribute n) := by
  refine .get (ParAt.ite (p := s.state = .TagElement) ?_ (.pure false))
  exact (par_printChar hI hb _).bind fun _ _ _ => (par_printToBuffer hI hb _).bind fun _ _ _ =>
    (par_printChar hI hb _).bind fun _ _ _ => par_enter hI hb _

theorem par_value (v : List Byte) : ParAt b s (printValue v) (printValue v) := by
  refine .get (ParAt.ite (p := s.state = .TagAttribute) ?_ ?_)
  · refine ParAt.bind ?_ fun _ _ _ => par_enter hI hb _
    exact (par_printChar hI hb _).bind fun _ _ _ => (par_printSubst hI hb _ _).bind fun _ _ _ => par_printChar hI hb _
  · refine (par_exit hI hb).bind fun r _ _ => ParAt.ite (.pure false) ?_
    exact (par_printSubst hI hb _ _).bind fun _ _ _ => .pure true

theorem par_closed : ParAt b s closed closed := by
  refine (par_onStack hI hb _).bind fun _ s' _ => .get (ParAt.ite (p := s'.tagstack.empty = true) ?_ (.pure true))
  exact (par_printChar hI hb _).bind fun _ _ _ => .pure true

theorem par_close : ParAt b s printCloseTag printCloseTag := by
  refine (par_onStack hI hb _).bind fun t s' _ => ?_
  match t with
  | none => exact .pure false
  | some [] => exact .pure false
  | some (c :: n) =>
    refine .get ?_
    have hs : (over b s').state = s'.state := rfl
    rw [hs]
    cases s'.state with
    | Content =>
      exact (par_printChar hI hb _).bind fun _ _ _ => (par_printChar hI hb _).bind fun _ _ _ =>
        (par_printToBuffer hI hb _).bind fun _ _ _ => (par_printChar hI hb _).bind fun _ _ _ => par_closed hI hb
    | Init => exact .pure false
    | TagAttribute => exact .pure false
    | TagElement =>
      refine (par_printChar hI hb _).bind fun _ _ _ => (par_printChar hI hb _).bind fun _ _ _ => ?_
      refine ParAt.bind (ParAt.modify ?_) fun _ _ _ => par_closed hI hb
      rfl

theorem par_call (limit : Nat) (c : Spec.PCall) : ParAt b s (call limit c) (call limit c) := by
  cases c with
  | header e sa => exact par_header hI hb e sa
  | doctype r p y => exact par_doctype hI hb r p y
  | exit => exact par_exit hI hb
  | open_ n => exact par_open hI hb limit n
  | attr n => exact par_attr hI hb n
  | value v => exact par_value hI hb v
  | close => exact par_close hI hb
  | reset d =>
    refine ParAt.bind (ParAt.modify ?_) fun _ _ _ => .pure true
    rfl
  | copy m =>
    refine ParAt.bind (ParAt.modify ?_) fun _ _ _ => .pure true
    rfl

theorem par_calls (limit : Nat) (cs : List Spec.PCall) : ∀ s, ParAt b s (calls limit cs) (calls limit cs) := by
  induction cs with
  | nil => intro s; exact .pure []
  | cons c cs ih =>
    intro s
    exact (par_call hI hb limit c).bind fun _ _ _ => (ih _).bind fun _ _ _ => .pure _

end

end Printer

end TW
