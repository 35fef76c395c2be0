import Verif.Proofs.Pointer
import Verif.Proofs.Moved
import Verif.Spec.SameItems

/-!
# Sessions on any source run the machine
-/

namespace TW

open Spec Mach

variable {ι : Type} [Iter ι] {f g : Nat → Byte} {S : Source ι f} {e : Enc} {n L : Nat} {A : Cfg}

/-- The item `o` is the one of the machine. -/
structure Match (S : Source ι f) (e : Enc) (sp : Bool) (x : ElementType × Cfg) (o : Obs) : Prop where
  type : o.type = x.1
  item : o.item = x.2.out
  error : o.error = x.2.error
  asked : o.pos.isSome = sp
  pos : ¬ S.wrap → S.bd (x.2.tokenpos + ulen e f x.2.tokenpos) → sp = true → o.pos = some x.2.tokenpos

theorem SRel0.matched {sp : Bool} {s : Scanner (TextScanner ι)} {r : ElementType} (h : SRel0 S e s A) :
    Match S e sp (r, A) (Scanner.observe sp r s) := by
  refine ⟨rfl, h.out, h.error, ?_, ?_⟩
  · cases sp <;> rfl
  · rintro hw hb rfl
    obtain ⟨⟨ld, t, tp, rfl, h1, h2⟩, h3, h4⟩ := h
    exact congrArg some (h2.1 hw hb)

/-- On a source that is completely available a session runs if the machine does. -/
theorem session_matched {sp : Bool} (hS : S.Total) {cs : List (Nat × Bool)} {os : List (ElementType × Cfg)}
    (hr : Runs e f cs A os) : ∃ N, ∀ n, N ≤ n → ∀ s, SRel0 S e s A →
      ∃ l s', Scanner.session n sp cs s = (.ok l, s') ∧ Pairs (Match S e sp) os l := by
  induction hr with
  | nil A => exact ⟨0, fun n _ s _ => ⟨[], s, rfl, trivial⟩⟩
  | @cons mask c cs A B m r os h1 _ ih =>
    obtain ⟨N, ih⟩ := ih
    refine ⟨max N (m + 1), fun n hn s h => ?_⟩
    obtain ⟨s1, h2, h3⟩ := nextItem_fin (n := n) hS (h.rel mask) h1 (by omega)
    obtain ⟨s2, h4, h5⟩ := h3.clr c
    obtain ⟨l, s3, h6, h7⟩ := ih n (by omega) s2 h5
    refine ⟨Scanner.observe sp r s1 :: l, s3, ?_, And.intro h3.matched h7⟩
    unfold Scanner.session
    rw [M.bind_ok h2, M.bind_ok (M.get_run _), M.bind_ok h4, M.bind_ok h6]
    rfl

/-- A session that has returned is a run of the machine. -/
theorem session_back {sp : Bool} {cs : List (Nat × Bool)} :
    ∀ {A : Cfg} {s s' : Scanner (TextScanner ι)} {l : List Obs}, SRel0 S e s A →
    Scanner.session n sp cs s = (.ok l, s') → ∃ os, Runs e f cs A os ∧ Pairs (Match S e sp) os l := by
  induction cs with
  | nil =>
    intro A s s' l h hs
    cases hs
    exact ⟨[], .nil A, trivial⟩
  | cons mc cs ih =>
    intro A s s' l h hs
    obtain ⟨mask, c⟩ := mc
    unfold Scanner.session at hs
    generalize hr : Scanner.nextItem n mask s = x at hs
    obtain ⟨x, s1⟩ := x
    cases x with
    | stop er => rw [M.bind_stop hr] at hs; cases hs
    | ok r =>
      obtain ⟨m, B, h1, h2⟩ := nextItem_ok (h.rel mask) hr
      obtain ⟨s2, h4, h5⟩ := h2.clr c
      rw [M.bind_ok hr, M.bind_ok (M.get_run _), M.bind_ok h4, M.bind_run] at hs
      generalize hx : Scanner.session n sp cs s2 = x at hs
      obtain ⟨x, s3⟩ := x
      cases x with
      | stop er => cases hs
      | ok l' =>
        cases hs
        obtain ⟨os, h6, h7⟩ := ih h5 hx
        exact ⟨(r, B) :: os, .cons h1 h6, And.intro h2.matched h7⟩

/-- A session stops only for lack of fuel or with an error of the source. -/
theorem session_stop {sp : Bool} {cs : List (Nat × Bool)} {er : Stop} :
    ∀ {A : Cfg} {s s' : Scanner (TextScanner ι)}, SRel0 S e s A →
    Scanner.session n sp cs s = (.stop er, s') → er = .fuel ∨ (S.er er ∧ ∃ k, ¬ S.av k ∨ ¬ S.ic k) := by
  induction cs with
  | nil => intro A s s' h hs; cases hs
  | cons mc cs ih =>
    intro A s s' h hs
    obtain ⟨mask, c⟩ := mc
    unfold Scanner.session at hs
    generalize hr : Scanner.nextItem n mask s = x at hs
    obtain ⟨x, s1⟩ := x
    cases x with
    | stop er' =>
      rw [M.bind_stop hr] at hs
      cases hs
      obtain ⟨m', A', h1, h2, h3, -⟩ := nextItem_stop (h.rel mask) hr
      by_cases hfu : er = .fuel
      · exact .inl hfu
      · obtain ⟨h4, -, p, -, h5⟩ := h3 hfu
        exact .inr ⟨h4, _, h5⟩
    | ok r =>
      obtain ⟨m, B, h1, h2⟩ := nextItem_ok (h.rel mask) hr
      obtain ⟨s2, h4, h5⟩ := h2.clr c
      rw [M.bind_ok hr, M.bind_ok (M.get_run _), M.bind_ok h4, M.bind_run] at hs
      generalize hx : Scanner.session n sp cs s2 = x at hs
      obtain ⟨x, s3⟩ := x
      cases x with
      | stop er' => cases hs; exact ih h5 hx
      | ok l' => cases hs

namespace Mach

/-- All positions of tokens are at most a little behind the end. -/
theorem runs_tok {cs : List (Nat × Bool)} {os : List (ElementType × Cfg)} (hf : Ends f L) (hr : Runs e f cs A os) :
    Inv0 A → Near' L A → A.tokenpos ≤ A.src → ∀ x ∈ os, x.2.tokenpos < L + 16 := by
  induction hr with
  | nil => intro _ _ _ x hx; cases hx
  | @cons mask c cs A B m r os h1 _ ih =>
    intro hi hn ht x hx
    have hn' := fin_near hf (hi.inv mask) hn h1
    have ht' := fin_tokle h1 ht
    have hi' : Inv0 B := by
      obtain ⟨C, c1, c2⟩ := h1
      exact step_ret (steps_inv c1 (hi.inv _)) c2
    rcases List.mem_cons.1 hx with rfl | hx
    · rcases hn' with h | h <;> simp only <;> omega
    · refine ih (hi'.clr c) ?_ ?_ x hx
      · unfold Mach.clr; split <;> exact hn'
      · unfold Mach.clr; split <;> exact ht'

theorem moved_refl (A : Cfg) : Moved 0 False A A := ⟨rfl, .inr rfl⟩

theorem moved_eq {A B : Cfg} (h : Moved 0 False A B) : A = B := by
  obtain ⟨tp, rfl, h1 | h1⟩ := h.elim
  · exact h1.elim
  · rw [h1]; rfl

/-- A call that returns reads the text and a little behind it. -/
theorem fin_other {m mask : Nat} {B : Cfg} {r : ElementType} (hf : Ends f L) (hg : ∀ k, k < L + 24 → f k = g k)
    (hi : Inv mask A) (hn : Near' L A) (h : Fin e f mask m A r B) : Fin e g mask m A r B := by
  have one : ∀ {A B : Cfg} {x : Option ElementType}, A.src < L + 16 → step e f mask A = (x, B) →
      step e g mask A = (x, B) := by
    intro A B x hl hs
    obtain ⟨B', h1, h2⟩ := (moved_refl A).step (g := g) (.of fun i hi => hg _ (by omega)) hs
    rw [moved_eq h2]
    exact h1
  have low : ∀ {A : Cfg}, Near L A → ¬ Lost L A → A.src < L + 16 := by
    intro A h1 h2
    rcases h1 with h1 | h1 | h1
    · omega
    · omega
    · exact absurd h1 h2
  obtain ⟨C, h1, h2⟩ := h
  have key : ∀ {m : Nat} {A : Cfg}, Steps e f mask m A C → Inv mask A → Near L A → Steps e g mask m A C ∧
      C.src < L + 16 := by
    intro m A hs
    induction hs with
    | refl A =>
      intro _ hn
      refine ⟨.refl _, low hn fun hl => ?_⟩
      exact hl.never hf ⟨A, .refl _, h2⟩
    | @cons m A D C h3 h4 ih =>
      intro hi hn
      obtain ⟨i1, i2⟩ := ih h1 h2 (step_inv hi h3) (step_near hf hi hn h3)
      refine ⟨.cons (one (low hn fun hl => ?_) h3) i1, i2⟩
      exact hl.never hf ⟨C, .cons h3 h4, h2⟩
  obtain ⟨k1, k2⟩ := key h1 hi (hn.imp id .inl)
  exact ⟨C, k1, one k2 h2⟩

theorem runs_other {cs : List (Nat × Bool)} {os : List (ElementType × Cfg)} (hf : Ends f L)
    (hg : ∀ k, k < L + 24 → f k = g k) (hr : Runs e f cs A os) : Inv0 A → Near' L A → Runs e g cs A os := by
  induction hr with
  | nil => intro _ _; exact .nil _
  | @cons mask c cs A B m r os h1 _ ih =>
    intro hi hn
    have hn' := fin_near hf (hi.inv mask) hn h1
    have hi' : Inv0 B := by
      obtain ⟨C, c1, c2⟩ := h1
      exact step_ret (steps_inv c1 (hi.inv _)) c2
    refine .cons (fin_other hf hg (hi.inv mask) hn h1) (ih (hi'.clr c) ?_)
    unfold Mach.clr; split <;> exact hn'

end Mach

theorem Pairs.imp {α β : Type} {R R' : α → β → Prop} (h : ∀ a b, R a b → R' a b) :
    ∀ {as : List α} {bs : List β}, Pairs R as bs → Pairs R' as bs
  | [], [], _ => trivial
  | _ :: _, _ :: _, h1 => ⟨h _ _ h1.1, Pairs.imp h h1.2⟩
  | [], _ :: _, h1 => h1.elim
  | _ :: _, [], h1 => h1.elim

/-- Two sessions that run the same machine give the same items. -/
theorem Pairs.both {α β γ : Type} {R : α → β → Prop} {R' : α → γ → Prop} {Q : β → γ → Prop} :
    ∀ {as : List α} {bs : List β} {cs : List γ}, (∀ a ∈ as, ∀ b c, R a b → R' a c → Q b c) →
      Pairs R as bs → Pairs R' as cs → Pairs Q bs cs
  | [], [], [], _, _, _ => trivial
  | _ :: _, _ :: _, _ :: _, h, h1, h2 =>
    ⟨h _ (.head _) _ _ h1.1 h2.1, Pairs.both (fun a ha => h a (.tail _ ha)) h1.2 h2.2⟩
  | [], _ :: _, _, _, h1, _ => h1.elim
  | _ :: _, [], _, _, h1, _ => h1.elim
  | [], [], _ :: _, _, _, h2 => h2.elim
  | _ :: _, _ :: _, [], _, _, h2 => h2.elim

theorem Pairs.map {α β : Type} (t : α → β) : ∀ l : List α, Pairs (fun a b => b = t a) l (l.map t)
  | [] => trivial
  | _ :: l => ⟨rfl, Pairs.map t l⟩

theorem Pairs.eq {α β : Type} {t : α → β} : ∀ {as : List α} {bs : List β}, Pairs (fun a b => b = t a) as bs → bs = as.map t
  | [], [], _ => rfl
  | _ :: _, _ :: _, h => by rw [h.1, Pairs.eq h.2]; rfl
  | [], _ :: _, h => h.elim
  | _ :: _, [], h => h.elim

end TW
