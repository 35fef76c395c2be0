import Verif.Proofs.Output

/-!
# Printing to a buffer that throws
-/

namespace TW

namespace Printer

open Spec

variable {α δ : Type} {L : Nat} {e : Cause}

/-- The members are the same. -/
def As {β γ : Type} (s : PrinterTo β) (q : PrinterTo γ) : Prop :=
  q.state = s.state ∧ q.tagstack = s.tagstack ∧ q.app = s.app ∧ q.out = s.out ∧ q.lasterror = s.lasterror

/-- The printer with a buffer that takes `L` bytes and has got those of the string. -/
def full (e : Cause) (L : Nat) (s : Printer) : PrinterTo Throwing := s.withBuf ⟨s.buf, L - s.buf.length, e⟩

theorem pushAll_throwing (bs : List Byte) : ∀ (d : List Byte) (k : Nat), pushAll bs (⟨d, k, e⟩ : Throwing) =
    if bs.length ≤ k then (.ok (), ⟨d ++ bs, k - bs.length, e⟩) else (.stop (.throw e), ⟨d ++ bs.take k, 0, e⟩) := by
  induction bs with
  | nil => intro d k; simp [pushAll]
  | cons c bs ih =>
    intro d k
    show (OutBuffer.push c >>= fun _ => pushAll bs) (⟨d, k, e⟩ : Throwing) = _
    cases k with
    | zero =>
      have : (OutBuffer.push c : M Throwing Unit) ⟨d, 0, e⟩ = (.stop (.throw e), ⟨d, 0, e⟩) := rfl
      rw [M.bind_stop this, if_neg (by simp)]
      simp
    | succ k =>
      have : (OutBuffer.push c : M Throwing Unit) ⟨d, k + 1, e⟩ = (.ok (), ⟨d ++ [c], k, e⟩) := rfl
      rw [M.bind_ok this, ih]
      by_cases h : bs.length ≤ k
      · rw [if_pos h, if_pos (by simpa using h)]
        simp
      · rw [if_neg h, if_neg (by simpa using h)]
        simp

/-- `x` does for the buffer what `y` does for a string, as long as there is room; else it throws, with `P`. -/
def Thr (e : Cause) (L : Nat) (P : PrinterTo Throwing → Prop) (s : Printer) (x : M (PrinterTo Throwing) α) (y : M Printer α) : Prop :=
  s.buf.length ≤ L → s.buf <+: (y s).2.buf ∧
    ((y s).2.buf.length ≤ L → x (full e L s) = ((y s).1, full e L (y s).2)) ∧
    (L < (y s).2.buf.length → ∃ q, x (full e L s) = (.stop (.throw e), q) ∧ q.buf = ⟨(y s).2.buf.take L, 0, e⟩ ∧ P q)

variable {P Q : PrinterTo Throwing → Prop} {s : Printer}

theorem Thr.pure (a : α) : Thr e L P s (Pure.pure a) (Pure.pure a) :=
  fun h => ⟨List.prefix_rfl, fun _ => rfl, fun h' => absurd h' (Nat.not_lt.2 h)⟩

theorem Thr.stop (t : Stop) : Thr e L P s (M.stop t : M (PrinterTo Throwing) α) (M.stop t) :=
  fun h => ⟨List.prefix_rfl, fun _ => rfl, fun h' => absurd h' (Nat.not_lt.2 h)⟩

theorem Thr.mono {x : M (PrinterTo Throwing) α} {y : M Printer α} (h : Thr e L P s x y)
    (hP : L < (y s).2.buf.length → ∀ q, P q → Q q) : Thr e L Q s x y := by
  intro hl
  obtain ⟨h1, h2, h3⟩ := h hl
  refine ⟨h1, h2, fun h4 => ?_⟩
  obtain ⟨q, g1, g2, g3⟩ := h3 h4
  exact ⟨q, g1, g2, hP h4 q g3⟩

theorem Thr.bind {x : M (PrinterTo Throwing) α} {y : M Printer α} {k : α → M (PrinterTo Throwing) δ} {l : α → M Printer δ}
    (h : Thr e L P s x y) (hk : ∀ a s', y s = (.ok a, s') → s'.buf.length ≤ L → Thr e L P s' (k a) (l a))
    (hp : ∀ a s', y s = (.ok a, s') → s'.buf <+: (l a s').2.buf) :
    Thr e L P s (x >>= k) (y >>= l) := by
  intro hl
  obtain ⟨h1, h2, h3⟩ := h hl
  rcases hy : y s with ⟨r, s'⟩
  rw [hy] at h1 h2 h3
  simp only at h1 h2 h3
  cases r with
  | stop t =>
    rw [M.bind_stop hy]
    refine ⟨h1, fun h4 => M.bind_stop (h2 h4), fun h4 => ?_⟩
    obtain ⟨q, g1, g2, g3⟩ := h3 h4
    exact ⟨q, M.bind_stop g1, g2, g3⟩
  | ok a =>
    rw [M.bind_ok hy]
    have hpre := hp a s' hy
    refine ⟨h1.trans hpre, fun h4 => ?_, fun h4 => ?_⟩
    · have h5 := Nat.le_trans hpre.length_le h4
      rw [M.bind_ok (h2 h5)]
      exact (hk a s' hy h5 h5).2.1 h4
    · by_cases h5 : s'.buf.length ≤ L
      · obtain ⟨q, g1, g2, g3⟩ := (hk a s' hy h5 h5).2.2 h4
        exact ⟨q, by rw [M.bind_ok (h2 h5)]; exact g1, g2, g3⟩
      · obtain ⟨q, g1, g2, g3⟩ := h3 (by omega)
        refine ⟨q, M.bind_stop g1, ?_, g3⟩
        rw [g2]
        obtain ⟨z, hz⟩ := hpre
        rw [← hz, List.take_append_of_le_length (by omega)]

theorem Thr.get {k : PrinterTo Throwing → M (PrinterTo Throwing) δ} {l : Printer → M Printer δ}
    (h : Thr e L P s (k (full e L s)) (l s)) : Thr e L P s (M.get >>= k) (M.get >>= l) := h

theorem Thr.modify {f : PrinterTo Throwing → PrinterTo Throwing} {g : Printer → Printer} (h : f (full e L s) = full e L (g s))
    (hb : (g s).buf = s.buf) : Thr e L P s (M.modify f) (M.modify g) := by
  intro hl
  rw [M.modify_run]
  simp only
  rw [hb]
  exact ⟨List.prefix_rfl, fun _ => by rw [M.modify_run, h], fun h' => absurd h' (Nat.not_lt.2 hl)⟩

theorem Thr.ite {p : Prop} [Decidable p] {x x' : M (PrinterTo Throwing) α} {y y' : M Printer α} (h : p → Thr e L P s x y)
    (h' : ¬ p → Thr e L P s x' y') : Thr e L P s (if p then x else x') (if p then y else y') := by
  split
  · exact h ‹_›
  · exact h' ‹_›

/-! ## Nothing is taken from the string -/

/-- The string only grows. -/
def Grows (y : M Printer α) : Prop := ∀ s, s.buf <+: (y s).2.buf

theorem Grows.pure (a : α) : Grows (Pure.pure a) := fun _ => List.prefix_rfl

theorem Grows.stop (t : Stop) : Grows (M.stop t : M Printer α) := fun _ => List.prefix_rfl

theorem Grows.bind {y : M Printer α} {l : α → M Printer δ} (h : Grows y) (hl : ∀ a, Grows (l a)) : Grows (y >>= l) := by
  intro s
  rcases hy : y s with ⟨r, s'⟩
  have h1 := h s
  rw [hy] at h1
  cases r with
  | ok a => rw [M.bind_ok hy]; exact h1.trans (hl a s')
  | stop t => rw [M.bind_stop hy]; exact h1

theorem Grows.get {l : Printer → M Printer δ} (h : ∀ s, Grows (l s)) : Grows (M.get >>= l) := fun s => h s s

theorem Grows.modify {g : Printer → Printer} (h : ∀ s, (g s).buf = s.buf) : Grows (M.modify g) := by
  intro s
  rw [M.modify_run]
  simp only
  rw [h]
  exact List.prefix_rfl

theorem Grows.ite {p : Prop} [Decidable p] {y y' : M Printer α} (h : Grows y) (h' : Grows y') : Grows (if p then y else y') := by
  split
  · exact h
  · exact h'

theorem grows_emit (bs : List Byte) : Grows (emit bs) := by
  intro s
  rw [emit_run]
  exact List.prefix_append ..

theorem grows_printChars (g : UChar → List Byte) (src : List Byte) : Grows (printChars g src) := by
  refine .get fun s => ?_
  generalize (printLoop g (src.length + 1) (TextScanner.mk' s.app (CStr.mk' src))).1 = x
  cases x with
  | ok bs => exact grows_emit bs
  | stop e => exact .stop e

theorem grows_printToBuffer (src : List Byte) : Grows (printToBuffer src) := .get fun _ => grows_printChars _ src

theorem grows_printChar (c : Byte) : Grows (printChar c) := .get fun _ => grows_emit _

theorem grows_printSubst (tab : List (Byte × List Byte)) (src : List Byte) : Grows (printSubst tab src) :=
  .get fun _ => grows_printChars _ src

theorem grows_enter (st : PrintState) : Grows (enter st) := .bind (.modify fun _ => rfl) fun _ => .pure true

theorem grows_fail (m : String) : Grows (fail m) := .bind (.modify fun _ => rfl) fun _ => .pure false

theorem grows_onStack (x : M TagStack α) : Grows (onStack x) := by
  intro s
  unfold onStack M.zoom
  rcases x s.tagstack with ⟨r, t⟩
  exact List.prefix_rfl

theorem grows_exit : Grows exitTagContext := by
  refine .get fun s => ?_
  cases s.state with
  | Content => exact .pure true
  | Init => exact grows_fail _
  | TagAttribute => exact (grows_printChar _).bind fun _ => grows_enter _
  | TagElement => exact (grows_printChar _).bind fun _ => grows_enter _

theorem grows_closed : Grows closed :=
  (grows_onStack _).bind fun _ => .get fun _ => .ite ((grows_printChar _).bind fun _ => .pure true) (.pure true)

/-! ## The parts of the calls -/

theorem thr_emit (bs : List Byte) : Thr e L (As s) s (emit bs) (emit bs) := by
  intro hl
  rw [emit_run]
  simp only
  have hx : (emit bs : M (PrinterTo Throwing) Unit) (full e L s) =
      (match pushAll bs (⟨s.buf, L - s.buf.length, e⟩ : Throwing) with | (r, t) => (r, ({ full e L s with buf := t } : PrinterTo Throwing))) := rfl
  rw [hx, pushAll_throwing]
  refine ⟨List.prefix_append .., fun h => ?_, fun h => ?_⟩
  · rw [List.length_append] at h
    rw [if_pos (by omega)]
    simp only [full, PrinterTo.withBuf, List.length_append]
    rw [show L - s.buf.length - bs.length = L - (s.buf.length + bs.length) by omega]
  · rw [List.length_append] at h
    rw [if_neg (by omega)]
    refine ⟨_, rfl, ?_, rfl, rfl, rfl, rfl, rfl⟩
    simp only
    rw [List.take_append, List.take_of_length_le hl]

theorem thr_printChars (g : UChar → List Byte) (src : List Byte) : Thr e L (As s) s (printChars g src) (printChars g src) := by
  refine .get ?_
  show Thr e L (As s) s (match (printLoop g (src.length + 1) (TextScanner.mk' s.app (CStr.mk' src))).1 with
    | .ok bs => emit bs
    | .stop e => M.stop e) _
  generalize (printLoop g (src.length + 1) (TextScanner.mk' s.app (CStr.mk' src))).1 = x
  cases x with
  | ok bs => exact thr_emit bs
  | stop e => exact .stop e

theorem thr_printToBuffer (src : List Byte) : Thr e L (As s) s (printToBuffer src) (printToBuffer src) := .get (thr_printChars _ src)

theorem thr_printChar (c : Byte) : Thr e L (As s) s (printChar c) (printChar c) := .get (thr_emit _)

theorem thr_printSubst (tab : List (Byte × List Byte)) (src : List Byte) :
    Thr e L (As s) s (printSubst tab src) (printSubst tab src) := .get (thr_printChars _ src)

theorem thr_enter (st : PrintState) : Thr e L P s (enter st) (enter st) :=
  .bind (.modify rfl rfl) (fun _ _ _ _ => .pure true) fun _ _ _ => Grows.pure true _

theorem thr_fail (m : String) : Thr e L P s (fail m) (fail m) :=
  .bind (.modify rfl rfl) (fun _ _ _ _ => .pure false) fun _ _ _ => Grows.pure false _

theorem thr_onStack (x : M TagStack α) : Thr e L P s (onStack x) (onStack x) := by
  intro hl
  unfold onStack M.zoom
  refine ⟨?_, fun _ => ?_, fun h => ?_⟩
  · rcases x s.tagstack with ⟨r, t⟩
    exact List.prefix_rfl
  · show (match x s.tagstack with | (r, t) => (r, ({ full e L s with tagstack := t } : PrinterTo Throwing))) = _
    rcases x s.tagstack with ⟨r, t⟩
    rfl
  · revert h
    rcases x s.tagstack with ⟨r, t⟩
    intro h
    exact absurd h (Nat.not_lt.2 hl)

/-- Printing does not change the members. -/
theorem emit_as {y : M Printer Unit} (hy : ∀ s, ∃ r bs, y s = (r, { s with buf := s.buf ++ bs })) {a : Unit} {s s' : Printer}
    (h : y s = (.ok a, s')) : As s s' := by
  obtain ⟨r, bs, h1⟩ := hy s
  rw [h1] at h
  cases h
  exact ⟨rfl, rfl, rfl, rfl, rfl⟩

theorem printChars_as (g : UChar → List Byte) (src : List Byte) (s : Printer) : ∃ r bs, printChars g src s = (r, { s with buf := s.buf ++ bs }) := by
  unfold printChars
  rw [M.bind_ok (M.get_run _)]
  generalize (printLoop g (src.length + 1) (TextScanner.mk' s.app (CStr.mk' src))).1 = x
  cases x with
  | ok bs => exact ⟨_, bs, emit_run ..⟩
  | stop e => exact ⟨.stop e, [], by simp only [List.append_nil]; rfl⟩

theorem As.trans {β γ δ : Type} {s : PrinterTo β} {t : PrinterTo γ} {q : PrinterTo δ} (h : As s t) (h' : As t q) : As s q :=
  ⟨h'.1.trans h.1, h'.2.1.trans h.2.1, h'.2.2.1.trans h.2.2.1, h'.2.2.2.1.trans h.2.2.2.1, h'.2.2.2.2.trans h.2.2.2.2⟩

theorem As.refl {β : Type} (s : PrinterTo β) : As s s := ⟨rfl, rfl, rfl, rfl, rfl⟩

theorem As.symm {β γ : Type} {s : PrinterTo β} {t : PrinterTo γ} (h : As s t) : As t s :=
  ⟨h.1.symm, h.2.1.symm, h.2.2.1.symm, h.2.2.2.1.symm, h.2.2.2.2.symm⟩

/-- A part that only prints: the members stay, and the rest goes on. -/
theorem Thr.prints {y : M Printer Unit} {x : M (PrinterTo Throwing) Unit} {k : M (PrinterTo Throwing) δ} {l : M Printer δ} {s0 : Printer}
    (hs : As s0 s) (h : ∀ s, Thr e L (As s) s x y) (hy : ∀ s, ∃ r bs, y s = (r, { s with buf := s.buf ++ bs }))
    (hg : Grows l) (hk : ∀ s', As s0 s' → Thr e L (As s0) s' k l) :
    Thr e L (As s0) s (x >>= fun _ => k) (y >>= fun _ => l) :=
  .bind ((h s).mono fun _ _ hq => hs.trans hq) (fun _ _ h1 _ => hk _ (hs.trans (emit_as hy h1))) fun _ _ _ => hg _

theorem emits_as (bs : List Byte) (s : Printer) : ∃ r cs, (emit bs : M Printer Unit) s = (r, { s with buf := s.buf ++ cs }) :=
  ⟨_, bs, emit_run ..⟩

theorem char_as (c : Byte) (s : Printer) : ∃ r bs, (printChar c : M Printer Unit) s = (r, { s with buf := s.buf ++ bs }) :=
  ⟨_, s.out.print c, emit_run ..⟩

theorem text_as (src : List Byte) (s : Printer) : ∃ r bs, (printToBuffer src : M Printer Unit) s = (r, { s with buf := s.buf ++ bs }) :=
  printChars_as _ src s

theorem subst_as (tab : List (Byte × List Byte)) (src : List Byte) (s : Printer) :
    ∃ r bs, (printSubst tab src : M Printer Unit) s = (r, { s with buf := s.buf ++ bs }) := printChars_as _ src s

/-! ## Calls that leave the members alone until the end -/

theorem thr_text (src : List Byte) {s0 : Printer} (hs : As s0 s) {k : M (PrinterTo Throwing) δ} {l : M Printer δ} (hg : Grows l)
    (hk : ∀ s', As s0 s' → Thr e L (As s0) s' k l) :
    Thr e L (As s0) s (printToBuffer src >>= fun _ => k) (printToBuffer src >>= fun _ => l) :=
  .prints hs (fun _ => thr_printToBuffer src) (text_as src) hg hk

theorem thr_chr (c : Byte) {s0 : Printer} (hs : As s0 s) {k : M (PrinterTo Throwing) δ} {l : M Printer δ} (hg : Grows l)
    (hk : ∀ s', As s0 s' → Thr e L (As s0) s' k l) :
    Thr e L (As s0) s (printChar c >>= fun _ => k) (printChar c >>= fun _ => l) :=
  .prints hs (fun _ => thr_printChar c) (char_as c) hg hk

theorem thr_header (a b : Option (List Byte)) : Thr e L (As s) s (printHeader a b) (printHeader a b) := by
  refine .get (Thr.ite (p := s.state ≠ .Init) (fun _ => thr_fail _) fun _ => ?_)
  have g3 : Grows (headerTail b) := by
    cases b with
    | none => exact grows_printToBuffer _
    | some b => exact (grows_printToBuffer _).bind fun _ => (grows_printToBuffer _).bind fun _ => grows_printToBuffer _
  have g4 : Grows (headerTail b >>= fun _ => enter .Content) := g3.bind fun _ => grows_enter _
  refine thr_text _ (As.refl s) ((grows_printToBuffer _).bind fun _ => g4) fun s1 h1 => thr_text _ h1 g4 fun s2 h2 => ?_
  refine Thr.bind ?_ (fun _ _ _ _ => thr_enter _) fun _ _ _ => grows_enter _ _
  cases b with
  | none => exact (thr_printToBuffer _).mono fun _ _ hq => h2.trans hq
  | some b =>
    exact thr_text _ h2 ((grows_printToBuffer _).bind fun _ => grows_printToBuffer _) fun s3 h3 =>
      thr_text _ h3 (grows_printToBuffer _) fun s4 h4 => (thr_printToBuffer _).mono fun _ _ hq => h4.trans hq

/-- Texts printed one after the other. -/
def texts {β : Type} [OutBuffer β] : List (List Byte) → M (PrinterTo β) Bool
  | [] => pure true
  | t :: ts => printToBuffer t >>= fun _ => texts ts

theorem grows_texts (ts : List (List Byte)) : Grows (texts ts) := by
  induction ts with
  | nil => exact .pure true
  | cons t ts ih => exact (grows_printToBuffer t).bind fun _ => ih

theorem thr_texts (ts : List (List Byte)) {s0 : Printer} : ∀ {s}, As s0 s → Thr e L (As s0) s (texts ts) (texts ts) := by
  induction ts with
  | nil => intro s _; exact .pure true
  | cons t ts ih => intro s h; exact thr_text t h (grows_texts ts) fun s' h' => ih h'

theorem thr_doctype (r p y : Option (List Byte)) : Thr e L (As s) s (printDoctype r p y) (printDoctype r p y) := by
  cases r with
  | none => exact .pure true
  | some r =>
    cases p with
    | none =>
      cases y with
      | none => exact thr_texts [_, _, _] (As.refl s)
      | some y => exact thr_texts [_, _, _, _, _] (As.refl s)
    | some p =>
      cases y with
      | none => exact thr_fail _
      | some y => exact thr_texts [_, _, _, _, _, _, _] (As.refl s)

theorem grows_doctype (r p y : Option (List Byte)) : Grows (printDoctype r p y) := by
  cases r with
  | none => exact .pure true
  | some r =>
    cases p with
    | none =>
      cases y with
      | none => exact grows_texts [_, _, _]
      | some y => exact grows_texts [_, _, _, _, _]
    | some p =>
      cases y with
      | none => exact grows_fail _
      | some y => exact grows_texts [_, _, _, _, _, _, _]

theorem thr_exit : Thr e L (As s) s exitTagContext exitTagContext := by
  refine .get ?_
  have hs : (full e L s).state = s.state := rfl
  rw [hs]
  cases s.state with
  | Content => exact .pure true
  | Init => exact thr_fail _
  | TagAttribute => exact thr_chr _ (As.refl s) (grows_enter _) fun _ _ => thr_enter _
  | TagElement => exact thr_chr _ (As.refl s) (grows_enter _) fun _ _ => thr_enter _

theorem thr_attr (n : List Byte) : Thr e L (As s) s (printAttribute n) (printAttribute n) := by
  refine .get (Thr.ite (p := s.state = .TagElement) (fun _ => ?_) fun _ => .pure false)
  have g1 : Grows (printChar 61 >>= fun _ => enter .TagAttribute) := (grows_printChar _).bind fun _ => grows_enter _
  exact thr_chr _ (As.refl s) ((grows_printToBuffer _).bind fun _ => g1) fun s1 h1 => thr_text _ h1 g1 fun s2 h2 =>
    thr_chr _ h2 (grows_enter _) fun _ _ => thr_enter _

/-! ## Calls that leave the tag first -/

/-- The members after `exitTagContext` has returned true. -/
theorem exit_ok {s1 : Printer} {r : Bool} (h : exitTagContext s = (.ok r, s1)) (hr : r = true) :
    (s.state = .Content ∧ s1 = s) ∨ ((s.state = .TagElement ∨ s.state = .TagAttribute) ∧
      s1 = { s with state := .Content, buf := s.buf ++ s.out.print 62 }) := by
  subst hr
  unfold exitTagContext at h
  rw [M.bind_ok (M.get_run _)] at h
  have hx : (printChar 62 >>= fun _ => enter .Content : M Printer Bool) s =
      (.ok true, { s with state := .Content, buf := s.buf ++ s.out.print 62 }) := by
    have : (printChar 62 : M Printer Unit) s = (.ok (), { s with buf := s.buf ++ s.out.print 62 }) := emit_run ..
    rw [M.bind_ok this]
    rfl
  cases hs : s.state with
  | Content => rw [hs] at h; cases h; exact Or.inl ⟨rfl, rfl⟩
  | Init => rw [hs] at h; cases h
  | TagAttribute => rw [hs] at h; exact Or.inr ⟨Or.inr rfl, by
      have := hx.symm.trans h
      cases this
      rfl⟩
  | TagElement => rw [hs] at h; exact Or.inr ⟨Or.inl rfl, by
      have := hx.symm.trans h
      cases this
      rfl⟩

/-- The members after an exception in a call that leaves the tag first. -/
def ExitLeft (L : Nat) (s : Printer) (q : PrinterTo Throwing) : Prop :=
  if (s.state = .TagElement ∨ s.state = .TagAttribute) ∧ s.buf.length + (s.out.print 62).length ≤ L then
    As { s with state := .Content } q else As s q

theorem exit_len (hs : s.state = .TagElement ∨ s.state = .TagAttribute) :
    (exitTagContext s).2.buf.length = s.buf.length + (s.out.print 62).length := by
  have hx : (printChar 62 >>= fun _ => enter .Content : M Printer Bool) s =
      (.ok true, { s with state := .Content, buf := s.buf ++ s.out.print 62 }) := by
    have : (printChar 62 : M Printer Unit) s = (.ok (), { s with buf := s.buf ++ s.out.print 62 }) := emit_run ..
    rw [M.bind_ok this]
    rfl
  unfold exitTagContext
  rw [M.bind_ok (M.get_run _)]
  rcases hs with hs | hs <;> rw [hs] <;> simp only <;> rw [hx] <;> simp

theorem thr_exiting {k : M (PrinterTo Throwing) Bool} {l : M Printer Bool} (hg : Grows l) (hk : ∀ s, Thr e L (As s) s k l) :
    Thr e L (ExitLeft L s) s (exitTagContext >>= fun r => if r = false then pure false else k)
      (exitTagContext >>= fun r => if r = false then pure false else l) := by
  refine Thr.bind (thr_exit.mono fun hlt q hq => ?_) (fun r s1 h1 hle => Thr.ite (fun _ => .pure false) fun hr => ?_)
    fun r s1 _ => Grows.ite (.pure false) hg _
  · unfold ExitLeft
    rw [if_neg ?_]
    · exact hq
    · rintro ⟨c1, c2⟩
      rw [exit_len c1] at hlt
      omega
  · refine (hk s1).mono fun _ q hq => ?_
    unfold ExitLeft
    rcases exit_ok h1 (by simpa using hr) with ⟨c1, rfl⟩ | ⟨c1, rfl⟩
    · rw [if_neg (by rw [c1]; simp)]
      exact hq
    · rw [if_pos ⟨c1, by simpa using hle⟩]
      exact hq

theorem thr_open (limit : Nat) (n : List Byte) : Thr e L (ExitLeft L s) s (printOpenTag limit n) (printOpenTag limit n) := by
  have g1 : Grows (onStack (TagStack.push limit 64 n) >>= fun _ => enter .TagElement) := (grows_onStack _).bind fun _ => grows_enter _
  exact thr_exiting ((grows_printChar _).bind fun _ => (grows_printToBuffer _).bind fun _ => g1) fun s =>
    thr_chr _ (As.refl s) ((grows_printToBuffer _).bind fun _ => g1) fun s1 h1 => thr_text _ h1 g1 fun s2 h2 =>
      Thr.bind (thr_onStack _) (fun _ _ _ _ => thr_enter _) fun _ _ _ => grows_enter _ _

theorem thr_value (v : List Byte) : Thr e L (fun q => if s.state = .TagAttribute then As s q else ExitLeft L s q) s
    (printValue v) (printValue v) := by
  refine .get (Thr.ite (p := s.state = .TagAttribute) (fun hs => ?_) fun hs => ?_)
  · refine Thr.bind (P := _) ?_ (fun _ _ _ _ => thr_enter _) fun _ _ _ => grows_enter _ _
    refine Thr.mono (P := As s) ?_ fun _ q hq => by rw [if_pos hs]; exact hq
    exact thr_chr _ (As.refl s) ((grows_printSubst _ _).bind fun _ => grows_printChar _) fun s1 h1 =>
      .prints h1 (fun _ => thr_printSubst _ _) (subst_as _ _) (grows_printChar _) fun s2 h2 =>
        (thr_printChar _).mono fun _ _ hq => h2.trans hq
  · refine Thr.mono (P := ExitLeft L s) ?_ fun _ q hq => by rw [if_neg hs]; exact hq
    exact thr_exiting ((grows_printSubst _ _).bind fun _ => .pure true) fun s =>
      .prints (As.refl s) (fun _ => thr_printSubst _ _) (subst_as _ _) (.pure true) fun _ _ => .pure true

/-! ## Closing a tag -/

/-- The members after an exception in a call that closes a tag: `W` is the result of the call on a string. -/
def CloseLeft (L : Nat) (s0 : Printer) (W : Res Bool × Printer) (q : PrinterTo Throwing) : Prop :=
  if W.1 = .ok true ∧ W.2.tagstack.empty = true ∧ W.2.buf.length ≤ L + (s0.out.print 10).length then As W.2 q else As s0 q

/-- If the stack is empty in the end, there is still a line break to print. -/
def Tail (l : M Printer Bool) : Prop :=
  ∀ s s', l s = (.ok true, s') → s'.tagstack.empty = true → s.buf.length + (s.out.print 10).length ≤ s'.buf.length

theorem tail_closed : Tail closed := by
  intro s s' h hm
  unfold closed at h
  rcases hp : (onStack TagStack.pop : M Printer Unit) s with ⟨r, s1⟩
  have hb : s1.buf = s.buf ∧ s1.out = s.out := by
    unfold onStack M.zoom at hp
    rcases h2 : TagStack.pop s.tagstack with ⟨r', t⟩
    rw [h2] at hp
    cases hp
    exact ⟨rfl, rfl⟩
  cases r with
  | stop t => rw [M.bind_stop hp] at h; cases h
  | ok u =>
    rw [M.bind_ok hp, M.bind_ok (M.get_run _)] at h
    by_cases hm1 : s1.tagstack.empty = true
    · rw [if_pos hm1] at h
      have : (printChar 10 : M Printer Unit) s1 = (.ok (), { s1 with buf := s1.buf ++ s1.out.print 10 }) := emit_run ..
      rw [M.bind_ok this] at h
      cases h
      simp [hb.1, hb.2]
    · rw [if_neg hm1] at h
      cases h
      exact absurd hm hm1

theorem Tail.bind {y : M Printer Unit} {l : M Printer Bool} (hy : ∀ s, ∃ r bs, y s = (r, { s with buf := s.buf ++ bs })) (hl : Tail l) :
    Tail (y >>= fun _ => l) := by
  intro s s' h hm
  obtain ⟨r, bs, h1⟩ := hy s
  cases r with
  | stop t => rw [M.bind_stop h1] at h; cases h
  | ok u =>
    rw [M.bind_ok h1] at h
    have := hl _ _ h hm
    simp only [List.length_append] at this
    omega

theorem Thr.closes {y : M Printer Unit} {x : M (PrinterTo Throwing) Unit} {k : M (PrinterTo Throwing) Bool} {l : M Printer Bool}
    {s0 : Printer} {W : Res Bool × Printer} (hs : As s0 s) (h : ∀ s, Thr e L (As s) s x y)
    (hy : ∀ s, ∃ r bs, y s = (r, { s with buf := s.buf ++ bs })) (hg : Grows l) (ht : Tail l) (hW : (y >>= fun _ => l) s = W)
    (hk : ∀ s', As s0 s' → l s' = W → Thr e L (CloseLeft L s0 W) s' k l) :
    Thr e L (CloseLeft L s0 W) s (x >>= fun _ => k) (y >>= fun _ => l) := by
  refine .bind ((h s).mono fun hlt q hq => ?_) (fun _ s1 h1 _ => ?_) fun _ _ _ => hg _
  · unfold CloseLeft
    rw [if_neg ?_]
    · exact hs.trans hq
    · rintro ⟨c1, c2, c3⟩
      obtain ⟨r, bs, h1⟩ := hy s
      cases r with
      | stop t => rw [M.bind_stop h1] at hW; rw [← hW] at c1; cases c1
      | ok u =>
        rw [M.bind_ok h1] at hW
        have := ht _ W.2 (by rw [hW, ← c1]) c2
        rw [h1] at hlt
        simp only [hs.2.2.2.1] at this hlt
        omega
  · rw [M.bind_ok h1] at hW
    exact hk s1 (hs.trans (emit_as hy h1)) hW

theorem thr_closed {s0 : Printer} {W : Res Bool × Printer} (ho : s.out = s0.out) (hW : closed s = W) :
    Thr e L (CloseLeft L s0 W) s closed closed := by
  unfold closed at hW ⊢
  refine Thr.bind (thr_onStack _) (fun u s1 h1 hle => ?_) fun _ s1 _ => ?_
  · rw [M.bind_ok h1, M.bind_ok (M.get_run _)] at hW
    have ho1 : s1.out = s.out := by
      unfold onStack M.zoom at h1
      rcases h2 : TagStack.pop s.tagstack with ⟨r', t⟩
      rw [h2] at h1
      cases h1
      rfl
    refine .get (Thr.ite (p := s1.tagstack.empty = true) (fun hm => ?_) fun _ => .pure true)
    rw [if_pos hm] at hW
    have hp : (printChar 10 : M Printer Unit) s1 = (.ok (), { s1 with buf := s1.buf ++ s1.out.print 10 }) := emit_run ..
    rw [M.bind_ok hp] at hW
    refine Thr.bind ((thr_printChar _).mono fun _ q hq => ?_) (fun _ _ _ _ => .pure true) fun _ _ _ => Grows.pure true _
    unfold CloseLeft
    have hc : (s1.buf ++ s1.out.print 10).length ≤ L + (s0.out.print 10).length := by
      rw [List.length_append, ho1, ho]
      omega
    rw [← hW, if_pos ⟨rfl, hm, hc⟩]
    exact hq
  · exact Grows.get (fun _ => Grows.ite ((grows_printChar _).bind fun _ => .pure true) (.pure true)) s1

theorem top_same (t : TagStack) : (TagStack.top t).2 = t := by
  have h1 : ∀ i, (TagStack.loadWord i t).2 = t := by
    intro i; unfold TagStack.loadWord; split <;> rfl
  have h2 : ∀ i n, (TagStack.bytes i n t).2 = t := by
    intro i n; unfold TagStack.bytes; split <;> rfl
  have h3 : (TagStack.topofs t).2 = t := by
    unfold TagStack.topofs
    rw [M.bind_ok (M.get_run _)]
    split
    · rfl
    · rcases h4 : TagStack.loadWord (t.pos - 8) t with ⟨r, t'⟩
      have h5 : t' = t := by have := h1 (t.pos - 8); rw [h4] at this; exact this
      cases r with
      | stop x => rw [M.bind_stop h4]; exact h5
      | ok n =>
        rw [M.bind_ok h4]
        show ((if t.pos < (n + TagStack.getAlign n + 8) % 2 ^ 64 then pure (0, n)
          else pure ((n + TagStack.getAlign n + 8) % 2 ^ 64, n) : M TagStack (Nat × Nat)) t').2 = t
        split <;> exact h5
  unfold TagStack.top
  rcases h4 : TagStack.topofs t with ⟨r, t'⟩
  have h5 : t' = t := by rw [h4] at h3; exact h3
  subst h5
  cases r with
  | stop x => rw [M.bind_stop h4]
  | ok n =>
    rw [M.bind_ok h4]
    simp only
    split
    · rfl
    · rw [M.bind_ok (M.get_run _)]
      rcases h6 : TagStack.bytes (t'.pos - n.1) n.2 t' with ⟨r, t2⟩
      have h7 := h2 (t'.pos - n.1) n.2
      rw [h6] at h7
      cases r with
      | stop x => rw [M.bind_stop h6]; exact h7
      | ok n => rw [M.bind_ok h6]; exact h7

theorem grows_closing (t : Option (List Byte)) : Grows (match t with
    | none => pure false
    | some [] => pure false
    | some name => do
      let s ← M.get
      match s.state with
      | .TagElement => do
        printChar 47
        printChar 62
        M.modify fun s => { s with state := .Content }
        closed
      | .Content => do
        printChar 60
        printChar 47
        printToBuffer name
        printChar 62
        closed
      | _ => pure false : M Printer Bool) := by
  match t with
  | none => exact .pure false
  | some [] => exact .pure false
  | some (c :: n) =>
    refine Grows.get fun s => ?_
    cases s.state with
    | Content =>
      exact (grows_printChar _).bind fun _ => (grows_printChar _).bind fun _ => (grows_printToBuffer _).bind fun _ =>
        (grows_printChar _).bind fun _ => grows_closed
    | Init => exact .pure false
    | TagAttribute => exact .pure false
    | TagElement =>
      exact (grows_printChar _).bind fun _ => (grows_printChar _).bind fun _ =>
        Grows.bind (.modify fun _ => rfl) fun _ => grows_closed

theorem thr_close : Thr e L (CloseLeft L s (printCloseTag s)) s printCloseTag printCloseTag := by
  generalize hW : (printCloseTag s : Res Bool × Printer) = W
  unfold printCloseTag at hW ⊢
  refine Thr.bind (thr_onStack _) (fun t s' h1 _ => ?_) fun t s' _ => grows_closing t s'
  have hs' : s' = s := by
    unfold onStack M.zoom at h1
    have := top_same s.tagstack
    rcases h2 : TagStack.top s.tagstack with ⟨r', t⟩
    rw [h2] at h1 this
    cases h1
    simp only at this
    rw [this]
  subst hs'
  rw [M.bind_ok h1] at hW
  match t with
  | none => exact .pure false
  | some [] => exact .pure false
  | some (c :: n) =>
    refine .get ?_
    simp only at hW
    rw [M.bind_ok (M.get_run _)] at hW
    have hst : (full e L s').state = s'.state := rfl
    rw [hst]
    cases hc : s'.state with
    | Content =>
      rw [hc] at hW
      have t1 : Tail (printChar 62 >>= fun _ => closed) := tail_closed.bind (char_as _)
      have t2 : Tail (printToBuffer (c :: n) >>= fun _ => printChar 62 >>= fun _ => closed) := t1.bind (text_as _)
      have g1 : Grows (printChar 62 >>= fun _ => closed) := (grows_printChar _).bind fun _ => grows_closed
      have g2 : Grows (printToBuffer (c :: n) >>= fun _ => printChar 62 >>= fun _ => closed) := (grows_printToBuffer _).bind fun _ => g1
      exact .closes (As.refl s') (fun _ => thr_printChar _) (char_as _) ((grows_printChar _).bind fun _ => g2) (t2.bind (char_as _)) hW fun s1 h1 w1 =>
        .closes h1 (fun _ => thr_printChar _) (char_as _) g2 t2 w1 fun s2 h2 w2 =>
        .closes h2 (fun _ => thr_printToBuffer _) (text_as _) g1 t1 w2 fun s3 h3 w3 =>
        .closes h3 (fun _ => thr_printChar _) (char_as _) grows_closed tail_closed w3 fun s4 h4 w4 => thr_closed h4.2.2.2.1 w4
    | Init => exact .pure false
    | TagAttribute => exact .pure false
    | TagElement =>
      rw [hc] at hW
      have t1 : Tail (M.modify (fun s => { s with state := .Content }) >>= fun _ => closed) := by
        intro s s' h hm
        exact tail_closed { s with state := .Content } s' h hm
      have g1 : Grows (M.modify (fun s => { s with state := .Content }) >>= fun _ => closed) :=
        Grows.bind (.modify fun _ => rfl) fun _ => grows_closed
      refine .closes (As.refl s') (fun _ => thr_printChar _) (char_as _) ((grows_printChar _).bind fun _ => g1) (t1.bind (char_as _)) hW fun s1 h1 w1 =>
        .closes h1 (fun _ => thr_printChar _) (char_as _) g1 t1 w1 fun s2 h2 w2 => ?_
      refine Thr.bind (.modify rfl rfl) (fun _ s3 h3 _ => ?_) fun _ _ _ => grows_closed _
      rw [M.modify_run] at h3
      cases h3
      exact thr_closed h2.2.2.2.1 w2

/-! ## Any call -/

/-- The members after an exception: `s` is the printer before the call, `W` the result of the call on a string. -/
def Left (L : Nat) (s : Printer) (W : Res Bool × Printer) (q : PrinterTo Throwing) : PCall → Prop
  | .open_ _ => ExitLeft L s q
  | .value _ => if s.state = .TagAttribute then As s q else ExitLeft L s q
  | .close => CloseLeft L s W q
  | _ => As s q

theorem thr_call (limit : Nat) (c : PCall) : Thr e L (fun q => Left L s (call limit c s) q c) s (call limit c) (call limit c) := by
  cases c with
  | header a b => exact thr_header a b
  | doctype r p y => exact thr_doctype r p y
  | exit => exact thr_exit
  | open_ n => exact thr_open limit n
  | attr n => exact thr_attr n
  | value v => exact thr_value v
  | close => exact thr_close
  | reset d => exact Thr.bind (.modify rfl rfl) (fun _ _ _ _ => .pure true) fun _ _ _ => Grows.pure true _
  | copy m => exact Thr.bind (.modify rfl rfl) (fun _ _ _ _ => .pure true) fun _ _ _ => Grows.pure true _

end Printer

end TW
