import Verif.Proofs.Reader
import Verif.Proofs.Sources
import Verif.Spec.Calls

/-!
# Histories of text scanner calls
-/

namespace TW

open Spec

variable {ι : Type} [Iter ι] {f : Nat → Byte} {S : Source ι f} {e : Enc}

/-- One call. -/
def TextScanner.call : TCall → M (TextScanner ι) TOut
  | .chr => do let v ← TextScanner.chr; pure (.num v)
  | .ascii => do let v ← TextScanner.ascii; pure (.num v)
  | .control => do let v ← TextScanner.control; pure (.cls v)
  | .pos => do let t ← M.get; pure (.num t.getPosition)
  | .skip => do TextScanner.skip; pure .none
  | .copy out => do let bs ← TextScanner.copychar out; pure (.bytes bs)

/-- A history of calls with its results. -/
def TextScanner.calls : List TCall → M (TextScanner ι) (List TOut)
  | [] => pure []
  | c :: cs => do
    let o ← TextScanner.call c
    let os ← TextScanner.calls cs
    pure (o :: os)

theorem uasc_lt (e : Enc) (f : Nat → Byte) (k : Nat) : uasc e f k < 256 := by
  unfold uasc
  repeat' split
  all_goals omega

theorem classOf_eq (c : Nat) (hc : c < 256) : controlCharMap c = classOf c := by
  have : ∀ c : Fin 256, controlCharMap c.1 = classOf c.1 := by decide +kernel
  exact this ⟨c, hc⟩

/-- A source that always delivers. -/
def Source.Total (S : Source ι f) : Prop := ∀ k, S.av k ∧ S.ic k

theorem SimAt.ok (hS : S.Total) {α : Type} {x : M (TextScanner ι) α} {y : M (AR e f) α}
    {t : TextScanner ι} {a : AR e f} (h : SimAt S e x y t a) :
    ∃ v t' a', x t = (.ok v, t') ∧ y a = (.ok v, a') ∧ TRel S e t' a' := by
  rcases h with h | ⟨er, t', h1, h2, p, h3, h4, h5⟩
  · exact h
  · have := hS (a.k + p)
    rcases h4 with h4 | h4
    · exact absurd this.1 h4
    · exact absurd this.2 h4

/-- The position query of the history is within the range where the iterator's
position is right. -/
def PosOk (S : Source ι f) (e : Enc) : Nat → List TCall → Prop
  | _, [] => True
  | k, .skip :: cs => PosOk S e (k + ulen e f k) cs
  | k, .pos :: cs => S.bd (k + ulen e f k) ∧ PosOk S e k cs
  | k, .chr :: cs => PosOk S e k cs
  | k, .ascii :: cs => PosOk S e k cs
  | k, .control :: cs => PosOk S e k cs
  | k, .copy _ :: cs => PosOk S e k cs

theorem offs_succ (k n : Nat) : offs e f k (n + 1) = offs e f (k + ulen e f k) n := by
  induction n with
  | zero => rfl
  | succ n ih => rw [offs, ih]; rfl

theorem calls_run (hS : S.Total) (cs : List TCall) : ∀ (b : Bool) (t : TextScanner ι) (a : AR e f),
    TRel S e t a → (b = true → a.ld ≠ .no) → PosOk S e a.k cs →
    ((∃ be, e = .utf16 be) → Examined b cs) →
    ∃ t', TextScanner.calls cs t = (.ok (callsOut e f a.k cs), t') ∧
      ∃ l, TRel S e t' { k := offs e f a.k (cs.count .skip), ld := l } := by
  induction cs with
  | nil => intro b t a h _ _ _; exact ⟨t, rfl, a.ld, h⟩
  | cons c cs ih =>
    intro b t a h hb hp hx
    have key : ∀ (o : TOut) (t1 : TextScanner ι) (a1 : AR e f) (b1 : Bool),
        TextScanner.call c t = (.ok o, t1) → TRel S e t1 a1 → (b1 = true → a1.ld ≠ .no) →
        callsOut e f a.k (c :: cs) = o :: callsOut e f a1.k cs →
        offs e f a.k ((c :: cs).count .skip) = offs e f a1.k (cs.count .skip) →
        PosOk S e a1.k cs →
        ((∃ be, e = .utf16 be) → Examined b1 cs) →
        ∃ t', TextScanner.calls (c :: cs) t = (.ok (callsOut e f a.k (c :: cs)), t') ∧
          ∃ l, TRel S e t' { k := offs e f a.k ((c :: cs).count .skip), ld := l } := by
      intro o t1 a1 b1 h1 h2 h3 h4 h5 h6 h7
      obtain ⟨t', h8, l, h9⟩ := ih b1 t1 a1 h2 h3 h6 h7
      refine ⟨t', ?_, l, ?_⟩
      · show (TextScanner.call c >>= fun o => TextScanner.calls cs >>= fun os => pure (o :: os)) t = _
        rw [M.bind_ok h1, M.bind_ok h8, h4]
        rfl
      · rw [h5]; exact h9
    cases c with
    | chr =>
      obtain ⟨v, t1, a1, h1, h2, h3⟩ := h.chr.ok hS
      simp only [AR.chr, Prod.mk.injEq, Res.ok.injEq] at h2
      obtain ⟨rfl, rfl⟩ := h2
      exact key (.num _) t1 _ true (by simp only [TextScanner.call]; rw [M.bind_ok h1]; rfl) h3
        (by simp) rfl rfl hp hx
    | ascii =>
      obtain ⟨v, t1, a1, h1, h2, h3⟩ := h.ascii.ok hS
      simp only [Reader.ascii, Prod.mk.injEq, Res.ok.injEq] at h2
      obtain ⟨rfl, rfl⟩ := h2
      refine key (.num _) t1 _ true (by simp only [TextScanner.call]; rw [M.bind_ok h1]; rfl) h3
        ?_ rfl rfl hp hx
      intro _; cases hl : a.ld <;> simp [Ld.up]
    | control =>
      obtain ⟨v, t1, a1, h1, h2, h3⟩ := h.control.ok hS
      simp only [Reader.control, Prod.mk.injEq, Res.ok.injEq] at h2
      obtain ⟨rfl, rfl⟩ := h2
      refine key (.cls _) t1 _ true (by simp only [TextScanner.call]; rw [M.bind_ok h1]; rfl) h3
        ?_ (by rw [classOf_eq _ (uasc_lt _ _ _)]; rfl) rfl hp hx
      intro _; cases hl : a.ld <;> simp [Ld.up]
    | pos =>
      have := h.getPosition' hp.1
      exact key (.num a.k) t a b (by simp [TextScanner.call, M.bind_run, this]) h hb rfl rfl hp.2 hx
    | skip =>
      obtain ⟨v, t1, a1, h1, h2, h3⟩ := h.skip.ok hS
      simp only [Reader.skip, Prod.mk.injEq] at h2
      obtain ⟨-, rfl⟩ := h2
      refine key .none t1 _ false (by simp only [TextScanner.call]; rw [M.bind_ok h1]; rfl) h3
        (by simp) rfl ?_ hp hx
      rw [List.count_cons_self]
      exact offs_succ _ _
    | copy out =>
      have hcond : a.ld ≠ .no ∨ e ≠ out ∨ ∀ be, e ≠ .utf16 be := by
        by_cases hu : ∃ be, e = .utf16 be
        · exact .inl (hb (hx hu).1)
        · right; right
          intro be hbe
          exact hu ⟨be, hbe⟩
      obtain ⟨v, t1, a1, h1, h2, h3⟩ := (h.copychar' out hcond).ok hS
      have hv : v = (if e = out then slice f a.k (ulen e f a.k) else out.print (uval e f a.k)) ∧
          a1 = { a with ld := .full } := by
        simp only [Reader.copychar] at h2
        split at h2 <;> simp_all
      obtain ⟨rfl, rfl⟩ := hv
      exact key (.bytes _) t1 _ b (by simp only [TextScanner.call]; rw [M.bind_ok h1]; rfl) h3
        (by simp) rfl rfl hp (fun hu => (hx hu).2)

theorem offs_le (k n : Nat) : k ≤ offs e f k n := by
  induction n with
  | zero => exact Nat.le_refl _
  | succ n ih => rw [offs]; omega

theorem callsOut_get (cs : List TCall) : ∀ (k i : Nat),
    (callsOut e f k cs)[i]? = cs[i]?.map (callOut e f (offs e f k ((cs.take i).count .skip))) := by
  induction cs with
  | nil => intro k i; simp [callsOut]
  | cons c cs ih =>
    intro k i
    by_cases hc : c = .skip
    · subst hc
      cases i with
      | zero => simp [callsOut, callOut]
      | succ i =>
        simp only [callsOut, List.getElem?_cons_succ, List.take_succ_cons, List.count_cons_self]
        rw [ih, offs_succ]
    · have h1 : callsOut e f k (c :: cs) = callOut e f k c :: callsOut e f k cs := by
        cases c <;> first | rfl | exact absurd rfl hc
      cases i with
      | zero => simp [h1, offs]
      | succ i =>
        rw [h1]
        simp only [List.getElem?_cons_succ, List.take_succ_cons]
        rw [ih, List.count_cons_of_ne hc]

theorem posOk_of_bd (cs : List TCall) : ∀ (k : Nat),
    S.bd (offs e f k (cs.count .skip) + 8) → PosOk S e k cs := by
  induction cs with
  | nil => intro k _; trivial
  | cons c cs ih =>
    intro k h
    cases c with
    | skip =>
      rw [List.count_cons_self, offs_succ] at h
      exact ih _ h
    | pos =>
      rw [List.count_cons_of_ne (by simp)] at h
      refine ⟨S.bd_mono _ _ ?_ h, ih _ h⟩
      have := offs_le (e := e) (f := f) k (cs.count .skip)
      have := ulen_le e f k
      omega
    | chr => rw [List.count_cons_of_ne (by simp)] at h; exact ih _ h
    | ascii => rw [List.count_cons_of_ne (by simp)] at h; exact ih _ h
    | control => rw [List.count_cons_of_ne (by simp)] at h; exact ih _ h
    | copy out => rw [List.count_cons_of_ne (by simp)] at h; exact ih _ h

theorem examined_of_queries (cs : List TCall) (h : ∀ out, TCall.copy out ∉ cs) (b : Bool) :
    Examined b cs := by
  induction cs generalizing b with
  | nil => cases b <;> trivial
  | cons c cs ih =>
    have h1 : ∀ out, TCall.copy out ∉ cs := fun o h' => h o (List.mem_cons_of_mem _ h')
    cases c with
    | copy out => exact absurd (List.mem_cons_self) (h out)
    | _ => exact ih h1 _

theorem calls_init (hS : S.Total) (e : Enc) (it : ι) (hs : S.RS it) (k : Nat) (hr : S.R it k)
    (cs : List TCall) (hp : PosOk S e k cs) (hx : (∃ be, e = .utf16 be) → Examined false cs) :
    ∃ t', TextScanner.calls cs (TextScanner.mk' e it) = (.ok (callsOut e f k cs), t') := by
  obtain ⟨t', h, -⟩ := calls_run hS cs false _ { k, ld := .no } (TRel.init S e it hs hr)
    (by simp) hp hx
  exact ⟨t', h⟩

end TW
