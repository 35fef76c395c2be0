import Verif.Proofs.AcceptGrammar
import Verif.Proofs.Reach
import Verif.Proofs.MachineShape

/-!
# A run of the automaton is a run of the scanner

The converse of `Passes.left`: on a text that leads the automaton to the exit, the scanner gives the items the automaton
tells, as long as it knows the entities.
-/

namespace TW.Mach

open Spec Scanner

variable {e : Enc} {f : Nat → Byte} {mask : Nat}

theorem Left.ofStart {B : Cfg} {as : List Byte} {ts : List ElementType} (h : B.tok.id = .Start) (ha : Auto B.state as ts) : Left B as ts :=
  ⟨fun _ => ha, fun h' => (by rw [h] at h'; cases h'), fun h' => (by rw [h] at h'; cases h'), fun h' => absurd h' (inTok_ne h rfl)⟩

theorem seen_cons {z : List Byte} {k n : Nat} {b : Byte} {as : List Byte} (hz : n ≠ 0 ∨ z = []) (h : seen e f z k n = b :: as) :
    ∃ n', n = n' + 1 ∧ b = uasc e f k ∧ as = seen e f z (k + ulen e f k) n' := by
  cases n with
  | zero =>
    rcases hz with hz | rfl
    · exact absurd rfl hz
    · cases h
  | succ n => cases h; exact ⟨n, rfl, rfl, rfl⟩

/-- Of the text seen nothing or a character is read; if this is a null it is read by a transition. -/
def Consumes (e : Enc) (f : Nat → Byte) (A B : Cfg) (n n' : Nat) : Prop :=
  (n' = n ∧ B.src = A.src) ∨ (n = n' + 1 ∧ B.src = A.src + ulen e f A.src ∧
    (uasc e f A.src = 0 → (stm A.state).next .EndOfText = some B.state ∧ B.tok.id = .Start))

theorem trans_forward {z : List Byte} {A B : Cfg} {q' : STMState} {rt : ElementType} {r : Option ElementType} {n : Nat} {as' : List Byte}
    (hz : n ≠ 0 ∨ z = []) (hm : Move A.state (seen e f z A.src n) q' as') (h : trans e f (stm A.state) rt A = (r, B)) :
    r = Scanner.loopEnd rt ∧ B.state = q' ∧ B.tok.id = .Start ∧ ∃ n', as' = seen e f z B.src n' ∧ Consumes e f A B n n' := by
  unfold trans at h
  simp only at h
  rcases hm with ⟨b, h1, h2⟩ | ⟨h1, h2, b, h3, h4⟩
  · obtain ⟨n', rfl, rfl, rfl⟩ := seen_cons hz h1
    have h2' : (stm A.state).next (cls e f A) = some q' := h2
    rw [h2'] at h
    cases h
    refine ⟨rfl, rfl, rfl, n', rfl, .inr ⟨rfl, rfl, fun h0 => ⟨?_, rfl⟩⟩⟩
    rw [h0] at h2
    exact h2
  · cases n with
    | zero =>
      rcases hz with hz | rfl
      · exact absurd rfl hz
      · cases h3
    | succ n =>
      cases h3
      have h4' : (stm A.state).next (cls e f A) = none := h4
      rw [h4', h2] at h
      cases h
      exact ⟨rfl, rfl, rfl, n + 1, h1, .inl ⟨rfl, rfl⟩⟩

theorem str_small {op : STMAction} {str : List Byte} (h : stringDefs op = some str) : ∀ c ∈ str, c < 128 := by
  cases op <;> simp only [stringDefs, Option.some.injEq, reduceCtorEq] at h <;> subst h <;> decide

theorem tokStep_some {A B : Cfg} {isTok : Cc → Bool} {r : ElementType} (hk : A.tok.id ≠ .ParsingKey) (h : tokStep e f isTok A = (some r, B)) :
    r = .ErrorOccurred ∧ B.error = .ErrUndefinedCharacterEntity := by
  unfold tokStep at h
  simp only at h
  cases hid : A.tok.id <;> simp only [hid] at h hk
  all_goals
    repeat' split at h
    all_goals first
      | (cases h; done)
      | (cases h; exact ⟨rfl, rfl⟩)
      | exact absurd rfl hk

/-- One step forwards. -/
theorem step_forward' {z : List Byte} {A B : Cfg} {r : Option ElementType} {n : Nat} {ts : List ElementType} (hz : n ≠ 0 ∨ z = []) (hi : Inv mask A)
    (hb : A.tok.id = .ParsingDone → Busy A.state) (hl : Left A (seen e f z A.src n) ts) (hs : step e f mask A = (r, B)) :
    (r = some .Exit ∧ ts = [.Exit] ∧ seen e f z A.src n = []) ∨
    (r = some .ErrorOccurred ∧ B.error = .ErrUndefinedCharacterEntity ∧ B.tok.id = .Start ∧ B.src = A.src ∧ Left B (seen e f z B.src n) ts) ∨
    (r ≠ some .Exit ∧ r ≠ some .ErrorOccurred ∧ ∃ n' ts', ts = r.toList ++ ts' ∧ Left B (seen e f z B.src n') ts' ∧ Consumes e f A B n n') := by
  have hs0 := hs
  unfold step at hs
  simp only at hs
  have hidle : (¬ Busy A.state) → A.tok.id = .Start := by
    intro hn
    cases hid : A.tok.id
    · rfl
    · exact absurd (hb hid) hn
    · obtain ⟨str, op, ⟨arg, h1, h2, h3⟩, -⟩ := hi.key hid
      exact absurd ⟨op, arg, h1, .inr (by rw [h3]; nofun)⟩ hn
    all_goals
      obtain ⟨isTok, arg, op, h1, h2, -⟩ := hi.tok (by rw [hid]; rfl)
      exact absurd ⟨op, arg, h1, .inl (by rw [h2]; nofun)⟩ hn
  -- behind a transition
  have hgo : ∀ {A' : Cfg} {q' : STMState} {as' : List Byte} {rt : ElementType} {ts' : List ElementType}, A'.src = A.src ∧ A'.state = A.state →
      Move A.state (seen e f z A.src n) q' as' → Auto q' as' ts' → trans e f (stm A.state) rt A' = (r, B) → rt ≠ .Exit → rt ≠ .ErrorOccurred →
      ts = (Scanner.loopEnd rt).toList ++ ts' →
      (r ≠ some .Exit ∧ r ≠ some .ErrorOccurred ∧ ∃ n' ts', ts = r.toList ++ ts' ∧ Left B (seen e f z B.src n') ts' ∧ Consumes e f A B n n') := by
    intro A' q' as' rt ts' h1 h2 h3 h4 h5 h6 h7
    rw [← h1.1, ← h1.2] at h2
    rw [← h1.2] at h4
    obtain ⟨k1, k2, k3, n', k4, k5⟩ := trans_forward hz h2 h4
    have h8 : r ≠ some .Exit ∧ r ≠ some .ErrorOccurred := by
      rw [k1]
      unfold Scanner.loopEnd
      split
      · exact ⟨nofun, nofun⟩
      · exact ⟨fun h => h5 (Option.some.inj h), fun h => h6 (Option.some.inj h)⟩
    refine ⟨h8.1, h8.2, n', ts', by rw [k1]; exact h7, Left.ofStart k3 ?_, ?_⟩
    · rw [k2, ← k4]
      exact h3
    · unfold Consumes at k5 ⊢
      rw [h1.1, h1.2] at k5
      exact k5
  have hargs : ∀ op arg, (stm A.state).action = some (op, arg) → arg ≠ .ErrorOccurred := by
    intro op arg h
    generalize A.state = q at h
    cases q <;> simp only [stm, Option.some.injEq, Prod.mk.injEq, reduceCtorEq] at h <;> (obtain ⟨-, rfl⟩ := h; nofun)
  split at hs
  · rename_i ha
    have hn : ¬ Busy A.state := by rintro ⟨op, arg, h1, -⟩; rw [ha] at h1; cases h1
    have h1 := hl.start (hidle hn)
    generalize hq : A.state = q at h1 ha
    generalize hv : seen e f z A.src n = as at h1
    cases h1 with
    | plain _ h2 h3 =>
      subst hq hv
      exact .inr (.inr (hgo ⟨rfl, rfl⟩ h2 h3 hs nofun nofun rfl))
    | exit => cases ha
    | tok h => rw [ha] at h; cases h
    | key h => rw [ha] at h; cases h
    | ret0 h => rw [ha] at h; cases h
    | ret h => rw [ha] at h; cases h
  · rename_i op arg ha
    have hre := hargs _ _ ha
    split at hs
    · rename_i isTok ht
      have harg := tok_arg _ _ _ ha (by rw [ht]; nofun)
      have hex : arg ≠ .Exit := by rintro rfl; have := exit_arg ha; rw [this] at ha; cases ha; cases ht
      split at hs
      · rename_i hid
        obtain ⟨q', as', ts', k1, k2, k3⟩ := hl.done hid
        refine .inr (.inr (hgo ⟨rfl, rfl⟩ k1 k2 hs hex hre ?_))
        rw [k3]
        unfold doneTypes
        rw [ha]
        simp only [ht, reduceCtorEq, if_false]
        unfold Scanner.loopEnd
        rw [if_neg harg]
        rfl
      · rename_i hid
        by_cases hbit : mask.testBit arg.toNat = true
        case neg =>
          rw [if_neg hbit] at hs
          have hst := unread_start hi ha ht hid hbit
          obtain ⟨t, as', k1, k2, k3, k4⟩ := (hl.start hst).token ha ht
          have hne : as' ≠ [] := by
            rintro rfl
            obtain ⟨q', as'', ts', (⟨b, m1, -⟩ | ⟨-, -, b, m1, -⟩), -⟩ := k4 <;> cases m1
          split at hs
          · rename_i hin
            rw [skips_in] at hin
            cases hs
            refine .inr (.inr ⟨nofun, nofun, ?_⟩)
            cases t with
            | nil =>
              exfalso
              cases as' with
              | nil => exact hne rfl
              | cons b as' =>
                obtain ⟨n', -, rfl, -⟩ := seen_cons hz k3
                exact k2 _ rfl hin
            | cons a t =>
              obtain ⟨n', rfl, rfl, k5⟩ := seen_cons hz k3
              refine ⟨n', ts, rfl, Left.ofStart hst ?_, .inr ⟨rfl, rfl, fun h0 => ?_⟩⟩
              · show Auto A.state (seen e f z (A.src + ulen e f A.src) n') ts
                obtain ⟨q', as'', ts', m1, m2, m3⟩ := k4
                rw [← k5, m3]
                exact .tok ha ht (fun x hx => k1 x (List.mem_cons_of_mem _ hx)) k2 m1 m2
              · exfalso
                rw [h0] at hin
                have hc : controlCharMap 0 = .EndOfText := by decide
                rcases hin with hin | hin
                · rw [hc, tok_end _ _ ht] at hin; cases hin
                · rw [hc] at hin; cases hin
          · rename_i hin
            rw [skips_in] at hin
            cases t with
            | cons a t =>
              obtain ⟨n', -, rfl, -⟩ := seen_cons hz k3
              exact absurd (k1 _ (List.mem_cons_self ..)) hin
            | nil =>
              obtain ⟨q', as'', ts', m1, m2, m3⟩ := k4
              refine .inr (.inr (hgo ⟨rfl, rfl⟩ (by rw [k3]; exact m1) m2 hs hex hre ?_))
              rw [m3]
              unfold Scanner.loopEnd
              rw [if_neg harg]
              rfl
        rw [if_pos hbit] at hs
        have hkey : A.tok.id ≠ .ParsingKey := by
          intro hk
          obtain ⟨str, op', ⟨arg', k1, k2, k3⟩, -⟩ := hi.key hk
          rw [ha] at k1; cases k1; rw [ht] at k2; cases k2
        -- the token that is left
        have hrest : ∃ t as', (∀ a ∈ t, inToken isTok a) ∧ (∀ b ∈ as'.head?, ¬ inToken isTok b) ∧
            seen e f z A.src n = t ++ as' ∧ Next A.state [arg] as' ts := by
          by_cases hin : inTok A.tok.id = true
          · obtain ⟨op', arg', isTok', t, as', k1, k2, k3, k6, k4, k5⟩ := hl.tok hin
            rw [ha] at k1; cases k1
            rw [ht] at k2; cases k2
            exact ⟨t, as', k3, k6, k4, k5⟩
          · have hst : A.tok.id = .Start := by
              cases h : A.tok.id <;> rw [h] at hin hid hkey <;> first | rfl | exact absurd rfl hid | exact absurd rfl hkey | exact absurd rfl hin
            exact (hl.start hst).token ha ht
        obtain ⟨t, as', k1, k2, k3, k4⟩ := hrest
        cases r with
        | some x =>
          obtain ⟨rfl, h1⟩ := tokStep_some hkey hs
          obtain ⟨-, h2, h3, h4, -⟩ := step_undef hi hs0 h1
          refine .inr (.inl ⟨rfl, h1, h4, h3, Left.ofStart h4 ?_⟩)
          rw [h2, h3, k3]
          obtain ⟨q', as'', ts', m1, m2, m3⟩ := k4
          rw [m3]
          exact .tok ha ht k1 k2 m1 m2
        | none =>
          obtain ⟨h1, h2⟩ := tokStep_reads ht hi.base hid hs
          refine .inr (.inr ⟨nofun, nofun, ?_⟩)
          have hok : ∀ {n' : Nat} {t' : List Byte}, inTok B.tok.id = true → (∀ a ∈ t', inToken isTok a) → seen e f z B.src n' = t' ++ as' →
              Left B (seen e f z B.src n') ts := by
            intro n' t' h3 h4 h5
            refine ⟨fun h => absurd h3 (inTok_ne h rfl), fun h => absurd h3 (inTok_ne h rfl), fun h => absurd h3 (inTok_ne h rfl), fun _ => ?_⟩
            exact ⟨op, arg, isTok, t', as', by rw [h1]; exact ha, ht, h4, k2, h5, by rw [h1]; exact k4⟩
          have hne : as' ≠ [] := by
            rintro rfl
            obtain ⟨q', as'', ts', (⟨b, m1, -⟩ | ⟨-, -, b, m1, -⟩), -⟩ := k4 <;> cases m1
          rcases h2 with ⟨h3, h4 | ⟨h4, h5⟩⟩ | ⟨h3, h4, h5⟩
          · exact ⟨n, ts, rfl, hok h4 k1 (by rw [h3]; exact k3), .inl ⟨rfl, h3⟩⟩
          · cases t with
            | cons a t =>
              obtain ⟨n', -, rfl, -⟩ := seen_cons hz k3
              exact absurd (k1 _ (List.mem_cons_self ..)) h5
            | nil =>
              refine ⟨n, ts, rfl, ⟨fun h => ?_, fun _ => ?_, fun h => ?_, fun h => ?_⟩, .inl ⟨rfl, h3⟩⟩
              · rw [h4] at h; cases h
              · rw [h1, h3, k3]
                unfold doneTypes
                rw [ha]
                simp only [ht, reduceCtorEq, if_false]
                exact k4
              · rw [h4] at h; cases h
              · exact absurd h (inTok_ne h4 rfl)
          · cases t with
            | nil =>
              exfalso
              cases as' with
              | nil => exact hne rfl
              | cons b as' =>
                obtain ⟨n', -, rfl, -⟩ := seen_cons hz k3
                exact k2 _ rfl h5
            | cons a t =>
              obtain ⟨n', rfl, rfl, k5⟩ := seen_cons hz k3
              refine ⟨n', ts, rfl, hok h4 (fun x hx => k1 x (List.mem_cons_of_mem _ hx)) (by rw [h3]; exact k5.symm), .inr ⟨rfl, h3, fun h0 => ?_⟩⟩
              exfalso
              rw [h0] at h5
              have hc : controlCharMap 0 = .EndOfText := by decide
              rcases h5 with h5 | h5
              · rw [hc, tok_end _ _ ht] at h5; cases h5
              · rw [hc] at h5; cases h5
    · rename_i ht
      split at hs
      · rename_i str hstr
        have hntok : ¬ inTok A.tok.id = true := by
          intro h
          obtain ⟨isTok, arg', op', h1, h2, -⟩ := hi.tok h
          rw [ha] at h1; cases h1; rw [ht] at h2; cases h2
        have hdone : doneTypes A.state = keyTypes op := by unfold doneTypes; rw [ha]; simp only [ht, if_true]
        unfold keyStep at hs
        simp only at hs
        split at hs
        · rename_i hid
          obtain ⟨q', as', ts', k1, k2, k3⟩ := hl.done hid
          refine .inr (.inr (hgo ⟨rfl, rfl⟩ k1 k2 hs (by split <;> nofun) (by split <;> nofun) ?_))
          rw [k3, hdone]
          unfold keyTypes Scanner.loopEnd
          by_cases ho : op = .ExpectIdentifierXML
          · simp only [ho, if_true, reduceCtorEq, if_false]; rfl
          · simp only [ho, if_false, if_true]; rfl
        · rename_i hid
          have hrest : ∃ as', seen e f z A.src n = str.drop A.tok.pos ++ as' ∧ Next A.state (keyTypes op) as' ts := by
            cases hid' : A.tok.id
            · have h0 : A.tok.pos = 0 := hi.pos0 (by rw [hid']; rfl)
              rw [h0]
              have h1 := hl.start hid'
              generalize hq : A.state = q at h1 ha
              generalize hv : seen e f z A.src n = as at h1
              cases h1 with
              | exit => cases ha; cases hstr
              | plain h => rw [ha] at h; cases h
              | tok h k => rw [ha] at h; cases h; rw [ht] at k; cases k
              | @key _ q' str' as as' ts' op' arg' k1 k2 k3 k4 k5 =>
                rw [ha] at k1; cases k1
                rw [hstr] at k3; cases k3
                exact ⟨as, rfl, q', as', ts', k4, k5, rfl⟩
              | ret0 h _ k => rw [ha] at h; cases h; rw [hstr] at k; cases k
              | ret h _ k => rw [ha] at h; cases h; rw [hstr] at k; cases k
            · exact absurd hid' hid
            · obtain ⟨op', arg', str', as', k1, k2, k3, k4, k5⟩ := hl.key hid'
              rw [ha] at k1; cases k1
              rw [hstr] at k3; cases k3
              exact ⟨as', k4, k5⟩
            all_goals exact absurd (by rw [hid']; rfl) hntok
          obtain ⟨as', k1, k2⟩ := hrest
          split at hs
          · rename_i hpos
            rw [List.drop_eq_nil_of_le (List.getElem?_eq_none_iff.1 hpos)] at k1
            have hB : B.state = A.state ∧ B.src = A.src ∧ B.tok.id = .ParsingDone ∧ r = none := by
              cases hs
              split <;> exact ⟨rfl, rfl, rfl, rfl⟩
            obtain ⟨h1, h2, h3, rfl⟩ := hB
            refine .inr (.inr ⟨nofun, nofun, n, ts, rfl, ⟨fun h => ?_, fun _ => ?_, fun h => ?_, fun h => ?_⟩, .inl ⟨rfl, h2⟩⟩)
            · rw [h3] at h; cases h
            · rw [h1, h2, hdone, k1]; exact k2
            · rw [h3] at h; cases h
            · exact absurd h (inTok_ne h3 rfl)
          · rename_i c hc
            have hlt := (List.getElem?_eq_some_iff.1 hc).1
            have hce := (List.getElem?_eq_some_iff.1 hc).2
            rw [List.drop_eq_getElem_cons hlt, hce] at k1
            obtain ⟨n', rfl, k3, k4⟩ := seen_cons hz k1
            have hsm : c < 128 := str_small hstr c (hce ▸ List.getElem_mem hlt)
            have hasc : asc e f A = c := by
              unfold asc
              rw [← k3, if_pos hsm]
            rw [if_pos hasc] at hs
            cases hs
            refine .inr (.inr ⟨nofun, nofun, n', ts, rfl, ⟨nofun, nofun, fun _ => ?_, nofun⟩, .inr ⟨rfl, rfl, fun h0 => ?_⟩⟩)
            · exact ⟨op, arg, str, as', ha, ht, hstr, k4.symm, k2⟩
            · rw [← k3] at h0
              exact absurd (h0 ▸ hce ▸ List.getElem_mem hlt) (str_pos hstr).1
      · rename_i hstr
        have hn : ¬ Busy A.state := by
          rintro ⟨op', arg', h1, h2⟩
          rw [ha] at h1; cases h1
          rcases h2 with h2 | h2
          · exact h2 ht
          · exact h2 hstr
        have hid := hidle hn
        have h1 := hl.start hid
        by_cases hx' : arg = .Exit
        · subst hx'
          have hq := exit_arg ha
          rw [hq] at hs h1
          cases hs
          refine .inl ⟨rfl, ?_⟩
          generalize seen e f z A.src n = as at h1
          cases h1 with
          | exit => exact ⟨rfl, rfl⟩
          | plain h => cases h
          | tok h k => cases h; cases k
          | key h _ k => cases h; cases k
          | ret0 _ _ _ _ k => cases k
          | ret _ _ _ k => exact absurd rfl k
        · obtain ⟨hnone, hfall⟩ := ret_fallback _ _ _ ha ht hstr hx'
          generalize hq : A.state = q at h1 ha
          generalize hv : seen e f z A.src n = as at h1
          cases h1 with
          | exit => cases ha; exact absurd rfl hx'
          | plain h => rw [ha] at h; cases h
          | tok h k => rw [ha] at h; cases h; rw [ht] at k; cases k
          | key h _ k => rw [ha] at h; cases h; rw [hstr] at k; cases k
          | @ret0 _ q' _ ts' op' arg' k1 k2 k3 k4 k5 k6 =>
            rw [ha] at k1; cases k1
            subst hq hv
            rw [if_pos k4, k5] at hs
            cases hs
            refine .inr (.inr ⟨fun h => hx' (Option.some.inj h), fun h => hre (Option.some.inj h), n, ts', rfl, Left.ofStart hid k6, .inl ⟨rfl, rfl⟩⟩)
          | @ret _ q' _ as' ts' op' arg' k1 k2 k3 k4 k5 k6 =>
            rw [ha] at k1; cases k1
            subst hq hv
            rw [if_neg k4] at hs
            refine .inr (.inr (hgo (A' := { A with tokenpos := A.src, out := [] }) ⟨rfl, rfl⟩ k5 k6 hs hx' hre ?_))
            unfold Scanner.loopEnd
            rw [if_neg hnone]
            rfl

theorem step_forward {A B : Cfg} {r : Option ElementType} {n : Nat} {ts : List ElementType} (hi : Inv mask A)
    (hb : A.tok.id = .ParsingDone → Busy A.state) (hl : Left A (view e f A.src n) ts) (hs : step e f mask A = (r, B)) :
    (r = some .Exit ∧ ts = [.Exit]) ∨
    (r = some .ErrorOccurred ∧ B.error = .ErrUndefinedCharacterEntity ∧ B.tok.id = .Start ∧ Left B (view e f B.src n) ts) ∨
    (r ≠ some .Exit ∧ r ≠ some .ErrorOccurred ∧ ∃ n' ts', ts = r.toList ++ ts' ∧ Left B (view e f B.src n') ts') := by
  rw [← seen_nil] at hl
  rcases step_forward' (.inr rfl) hi hb hl hs with ⟨h1, h2, -⟩ | ⟨h1, h2, h3, -, h4⟩ | ⟨h1, h2, n', ts', h3, h4, -⟩
  · exact .inl ⟨h1, h2⟩
  · rw [seen_nil] at h4; exact .inr (.inl ⟨h1, h2, h3, h4⟩)
  · rw [seen_nil] at h4; exact .inr (.inr ⟨h1, h2, n', ts', h3, h4⟩)

/-! ## Sequences of calls -/

/-- What is kept in a run on a text that leads to the exit. -/
structure Goes (e : Enc) (f : Nat → Byte) (mask : Nat) (A : Cfg) (ts : List ElementType) : Prop where
  inv : Inv mask A
  busy : A.tok.id = .ParsingDone → Busy A.state
  left : ∃ n, Left A (view e f A.src n) ts

theorem Left.congr {A B : Cfg} {as : List Byte} {ts : List ElementType} (h1 : B.tok = A.tok) (h2 : B.state = A.state) (h : Left A as ts) : Left B as ts := by
  refine ⟨?_, ?_, ?_, ?_⟩
  · rw [h1, h2]; exact h.start
  · rw [h1, h2]; exact h.done
  · rw [h1, h2]; exact h.key
  · rw [h1, h2]; exact h.tok

theorem clr_same (c : Bool) (B : Cfg) : (clr c B).tok = B.tok ∧ (clr c B).state = B.state ∧ (clr c B).src = B.src := by
  cases c <;> exact ⟨rfl, rfl, rfl⟩

theorem Goes.silent {A B : Cfg} {ts : List ElementType} (h : Goes e f mask A ts) (hs : step e f mask A = (none, B)) :
    Goes e f mask B ts := by
  obtain ⟨n, hl⟩ := h.left
  rcases step_forward h.inv h.busy hl hs with ⟨h1, -⟩ | ⟨h1, -⟩ | ⟨-, -, n', ts', h1, h2⟩
  · cases h1
  · cases h1
  · have h1' : ts = ts' := h1
    subst h1'
    exact ⟨step_inv h.inv hs, (step_left h.inv h.busy hs nofun nofun).1, n', h2⟩

theorem Goes.steps {m : Nat} {A B : Cfg} {ts : List ElementType} (hs : Steps e f mask m A B) (h : Goes e f mask A ts) :
    Goes e f mask B ts := by
  induction hs with
  | refl => exact h
  | cons h1 _ ih => exact ih (h.silent h1)

theorem step_at_exit {A : Cfg} (h : A.state = .EXIT) : step e f mask A = (some .Exit, { A with tokenpos := A.src, out := [] }) := by
  unfold step
  rw [h]
  rfl

/-- A call on a text that leads to the exit. -/
theorem Goes.call {m : Nat} {A B : Cfg} {r : ElementType} {ts : List ElementType} (h : Goes e f mask A ts)
    (hs : Fin e f mask m A r B) (c : Bool) :
    (r = .Exit ∧ ts = [.Exit] ∧ B.state = .EXIT) ∨
    (r = .ErrorOccurred ∧ B.error = .ErrUndefinedCharacterEntity ∧ ∀ mask', Goes e f mask' (clr c B) ts) ∨
    (r ≠ .Exit ∧ r ≠ .ErrorOccurred ∧ ∃ ts', ts = r :: ts' ∧ ∀ mask', Goes e f mask' (clr c B) ts') := by
  obtain ⟨A1, h1, h2⟩ := hs
  have h3 := h.steps h1
  obtain ⟨n, hl⟩ := h3.left
  have h0 := (step_ret h3.inv h2).clr c
  obtain ⟨e1, e2, e3⟩ := clr_same c B
  rcases step_forward h3.inv h3.busy hl h2 with ⟨k1, k2⟩ | ⟨k1, k2, k3, k4⟩ | ⟨k1, k2, n', ts', k3, k4⟩
  · cases k1
    refine .inl ⟨rfl, k2, ?_⟩
    have := step_exits h2
    rw [step_at_exit this] at h2
    cases h2
    exact this
  · cases k1
    refine .inr (.inl ⟨rfl, k2, fun mask' => ⟨h0.inv mask', ?_, n, ?_⟩⟩)
    · rw [e1, k3]; nofun
    · rw [e3]; exact k4.congr e1 e2
  · refine .inr (.inr ⟨fun h => k1 (congrArg some h), fun h => k2 (congrArg some h), ts', k3, fun mask' => ⟨h0.inv mask', ?_, n', ?_⟩⟩)
    · rw [e1, e2]; exact (step_left h3.inv h3.busy h2 k2 k1).1
    · rw [e3]; exact k4.congr e1 e2

theorem fin_exit {m : Nat} {A B : Cfg} {r : ElementType} (hs : Fin e f mask m A r B) (h : A.state = .EXIT) : r = .Exit ∧ B.state = .EXIT := by
  obtain ⟨A1, h1, h2⟩ := hs
  cases h1 with
  | refl => rw [step_at_exit h] at h2; cases h2; exact ⟨rfl, h⟩
  | cons h3 => rw [step_at_exit h] at h3; cases h3

/-- Behind the exit there is only the exit. -/
theorem runs_exit {calls : List (Nat × Bool)} {A : Cfg} {os : List (ElementType × Cfg)} (h : Runs e f calls A os) (hA : A.state = .EXIT) :
    (∀ o ∈ os, o.1 = .Exit) := by
  induction h with
  | nil => intro o ho; exact absurd ho List.not_mem_nil
  | @cons mask c cs A B m r os h1 _ ih =>
    obtain ⟨rfl, h2⟩ := fin_exit h1 hA
    intro o ho
    rcases List.mem_cons.1 ho with rfl | ho
    · rfl
    · exact ih (by rw [(clr_same c B).2.1]; exact h2) o ho

theorem sound_exit {os : List (ElementType × Cfg)} (h : ∀ o ∈ os, o.1 = .Exit) : sound os = List.replicate os.length .Exit := by
  induction os with
  | nil => rfl
  | cons o os ih =>
    rw [sound_cons, h o (List.mem_cons_self ..), if_neg (by decide), ih fun o ho => h o (List.mem_cons_of_mem _ ho)]
    rfl

/-- The calls on a text that leads to the exit give the items of the text. -/
theorem runs_forward {calls : List (Nat × Bool)} {A : Cfg} {os : List (ElementType × Cfg)} (h : Runs e f calls A os) :
    ∀ {ts : List ElementType}, (∀ mask, Goes e f mask A ts) →
    (∀ o ∈ os, o.1 = .ErrorOccurred → o.2.error = .ErrUndefinedCharacterEntity) ∧
    ∃ j k, sound os = ts.take j ++ List.replicate k .Exit ∧ (k ≠ 0 → ts.length ≤ j) ∧ (.Exit ∈ os.map (·.1) → ts.length ≤ j) := by
  induction h with
  | nil => intro ts _; exact ⟨fun o ho => absurd ho List.not_mem_nil, 0, 0, by simp [sound], fun h => absurd rfl h, fun h => absurd h List.not_mem_nil⟩
  | @cons mask c cs A B m r os h1 h2 ih =>
    intro ts hg
    rcases (hg mask).call h1 c with ⟨rfl, rfl, k1⟩ | ⟨rfl, k1, k2⟩ | ⟨k1, k2, ts', rfl, k3⟩
    · have := runs_exit h2 (by rw [(clr_same c B).2.1]; exact k1)
      refine ⟨?_, 1, os.length, ?_, fun _ => Nat.le_refl _, fun _ => Nat.le_refl _⟩
      · intro o ho hr
        rcases List.mem_cons.1 ho with rfl | ho
        · cases hr
        · rw [this o ho] at hr; cases hr
      · rw [sound_cons, if_neg (show ¬ ElementType.Exit = .ErrorOccurred by decide), sound_exit this]
        rfl
    · obtain ⟨h3, j, k, h4, h5, h6⟩ := ih k2
      refine ⟨?_, j, k, ?_, h5, ?_⟩
      · intro o ho hr
        rcases List.mem_cons.1 ho with rfl | ho
        · exact k1
        · exact h3 o ho hr
      · rw [sound_cons, if_pos rfl, h4]
      · intro hx
        rcases List.mem_cons.1 hx with hx | hx
        · cases hx
        · exact h6 hx
    · obtain ⟨h3, j, k, h4, h5, h6⟩ := ih k3
      refine ⟨?_, j + 1, k, ?_, fun h => by have := h5 h; simp only [List.length_cons]; omega, ?_⟩
      · intro o ho hr
        rcases List.mem_cons.1 ho with rfl | ho
        · exact absurd hr k2
        · exact h3 o ho hr
      · rw [sound_cons, if_neg k2, h4]
        rfl
      · intro hx
        rcases List.mem_cons.1 hx with hx | hx
        · exact absurd hx.symm k1
        · have := h6 hx; simp only [List.length_cons]; omega

/-! ## The calls return -/

theorem auto_zero {q : STMState} {as : List Byte} {ts : List ElementType} (h : Auto q as ts) : q ∈ lost → (∀ a ∈ as, a = 0) → False := by
  induction h with
  | exit => intro h; revert h; decide
  | @plain q q' as as' ts h1 hm _ ih =>
    intro hq h0
    obtain ⟨h3, ns, h4, h5⟩ := stm_lost _ hq
    have hc : controlCharMap 0 = .EndOfText := by decide
    rcases hm with ⟨b, rfl, hn⟩ | ⟨rfl, -, b, hb, hn⟩
    · rw [h0 b (List.mem_cons_self ..), hc, h4] at hn
      cases hn
      exact ih h5 fun a ha => h0 a (List.mem_cons_of_mem _ ha)
    · rw [h0 b (List.mem_of_mem_head? hb), hc, h4] at hn
      cases hn
  | tok h1 => intro hq; rw [(stm_lost _ hq).1] at h1; cases h1
  | key h1 => intro hq; rw [(stm_lost _ hq).1] at h1; cases h1
  | ret0 h1 => intro hq; rw [(stm_lost _ hq).1] at h1; cases h1
  | ret h1 => intro hq; rw [(stm_lost _ hq).1] at h1; cases h1

theorem view_zero {len : Nat} (hf : Ends f len) : ∀ (n : Nat) {k : Nat}, len ≤ k → ∀ a ∈ view e f k n, a = 0
  | 0, _, _ => nofun
  | n + 1, k, hk => by
    rw [view_succ]
    intro a ha
    rcases List.mem_cons.1 ha with rfl | ha
    · exact hf.uasc hk
    · exact view_zero hf n (by omega) a ha

/-- A call on a text that leads to the exit returns. -/
theorem Goes.returns {len : Nat} (hf : Ends f len) {A : Cfg} {ts : List ElementType} (h : Goes e f mask A ts) :
    ∃ m r B, m < 32 * (len + 2) ∧ Fin e f mask m A r B := by
  rcases fin_or_lost hf (32 * (len + 2)) h.inv (meas_le len A) with h1 | ⟨m, B, -, h2, h3, h4⟩
  · exact h1
  · exfalso
    have h5 := h.steps h2
    obtain ⟨n, hl⟩ := h5.left
    obtain ⟨ha, -⟩ := stm_lost _ h4
    have hid : B.tok.id = .Start := by
      cases hid : B.tok.id
      · rfl
      · obtain ⟨op, arg, k1, -⟩ := h5.busy hid
        rw [ha] at k1; cases k1
      · obtain ⟨str, op, ⟨arg, k1, -⟩, -⟩ := h5.inv.key hid
        rw [ha] at k1; cases k1
      all_goals
        obtain ⟨isTok, arg, op, k1, -⟩ := h5.inv.tok (by rw [hid]; rfl)
        rw [ha] at k1; cases k1
    exact auto_zero (hl.start hid) h4 (view_zero hf n h3)

/-- At the exit a call returns. -/
theorem exit_returns {A : Cfg} (h : A.state = .EXIT) : ∃ B, Fin e f mask 0 A .Exit B := ⟨_, A, .refl A, step_at_exit h⟩

theorem runs_exit_exist {calls : List (Nat × Bool)} : ∀ {A : Cfg}, A.state = .EXIT → ∃ os, Runs e f calls A os := by
  induction calls with
  | nil => intro A _; exact ⟨[], .nil A⟩
  | cons x cs ih =>
    intro A h
    obtain ⟨mask, c⟩ := x
    obtain ⟨B, hB⟩ := exit_returns (e := e) (f := f) (mask := mask) h
    obtain ⟨os, ho⟩ := ih (A := clr c B) (by rw [(clr_same c B).2.1]; exact (fin_exit hB h).2)
    exact ⟨_, .cons hB ho⟩

theorem runs_exist {len : Nat} (hf : Ends f len) {calls : List (Nat × Bool)} : ∀ {A : Cfg} {ts : List ElementType},
    (∀ mask, Goes e f mask A ts) → ∃ os, Runs e f calls A os := by
  induction calls with
  | nil => intro A _ _; exact ⟨[], .nil A⟩
  | cons x cs ih =>
    intro A ts hg
    obtain ⟨mask, c⟩ := x
    obtain ⟨m, r, B, -, hB⟩ := (hg mask).returns hf
    have h2 : ∃ os, Runs e f cs (clr c B) os := by
      rcases (hg mask).call hB c with ⟨-, -, k1⟩ | ⟨-, -, k2⟩ | ⟨-, -, ts', -, k3⟩
      · exact runs_exit_exist (by rw [(clr_same c B).2.1]; exact k1)
      · exact ih k2
      · exact ih k3
    obtain ⟨os, ho⟩ := h2
    exact ⟨_, .cons hB ho⟩

theorem Goes.new {output : Enc} {em : Option (List (Nat × UChar))} {addr n : Nat} {ts : List ElementType} (h : Auto .START (view e f 0 n) ts) (mask : Nat) :
    Goes e f mask (Cfg.new output em addr) ts :=
  ⟨(Inv0.new output em addr).inv mask, nofun, n, Left.ofStart rfl h⟩

/-! ## The number of unknown entities -/

/-- In a reference to an entity. -/
def inRef : TokId → Bool
  | .ParsingEntity | .ParsingNumericEntity | .ParsingNumericBaseEntity | .ParsingNamedEntity => true
  | _ => false

theorem trans_ref {sd : Elem} {rt : ElementType} {A B : Cfg} {r : Option ElementType} (h : Mach.trans e f sd rt A = (r, B)) :
    inRef B.tok.id = false := by
  unfold Mach.trans at h
  simp only at h
  repeat' split at h
  all_goals
    cases h
    rfl

theorem charStep_id (A : Cfg) : (charStep e f A).tok.id = A.tok.id := by
  unfold charStep
  repeat' split
  all_goals rfl

/-- A reference begins with a character of the text. -/
theorem step_ref {len : Nat} {A B : Cfg} {r : Option ElementType} (hf : Ends f len) (h : step e f mask A = (r, B)) (hA : inRef A.tok.id = false) :
    inRef B.tok.id = false ∨ (A.src < B.src ∧ A.src < len) := by
  unfold step at h
  simp only at h
  split at h
  · exact .inl (trans_ref h)
  · split at h
    · split at h
      · exact .inl (trans_ref h)
      · split at h
        · unfold tokStep at h
          cases hid : A.tok.id <;> simp only [hid] at h hA
          case Start => cases h; exact .inl rfl
          case ParsingToken =>
            split at h
            · cases h
              refine .inl ?_
              show inRef (charStep e f A).tok.id = false
              rw [charStep_id, hid]; rfl
            · split at h
              · rename_i hc
                cases h
                refine .inr ⟨?_, ?_⟩
                · have := ulen_pos e f A.src
                  show A.src < A.src + ulen e f A.src
                  omega
                · apply Nat.lt_of_not_le
                  intro hk
                  rw [hf.cls hk] at hc
                  cases hc
              · cases h; exact .inl rfl
          case ParsingKey => cases h; exact .inl rfl
          case ParsingDone => cases h; exact .inl (by rw [hid]; rfl)
          all_goals cases hA
        · split at h
          · cases h; exact .inl hA
          · exact .inl (trans_ref h)
    · split at h
      · unfold keyStep at h
        simp only at h
        split at h
        · exact .inl (trans_ref h)
        · split at h
          · cases h
            split <;> exact .inl rfl
          · split at h
            · cases h; exact .inl rfl
            · cases h; exact .inl rfl
      · split at h
        · split at h <;> (cases h; exact .inl hA)
        · exact .inl (trans_ref (A := { A with tokenpos := A.src, out := [] }) h)

theorem steps_ref {len m : Nat} {A B : Cfg} (hf : Ends f len) (h : Steps e f mask m A B) :
    inRef A.tok.id = false → inRef B.tok.id = false ∨ (A.src < B.src ∧ A.src < len) := by
  induction h with
  | refl => exact .inl
  | cons h1 h2 ih =>
    intro hA
    have m1 := (step_shape h1).mono
    have m2 := steps_mono h2
    rcases step_ref hf h1 hA with h3 | h3
    · rcases ih h3 with h4 | h4
      · exact .inl h4
      · exact .inr (by omega)
    · exact .inr (by omega)

theorem undef_ref {A B : Cfg} (hi : Inv mask A) (hs : step e f mask A = (some .ErrorOccurred, B)) (he : B.error = .ErrUndefinedCharacterEntity) :
    inRef A.tok.id = true := by
  obtain ⟨h1, -, -, -, op, arg, isTok, h2, h3⟩ := step_undef hi hs he
  unfold step at hs
  simp only [h2, h3] at hs
  cases hid : A.tok.id <;> first | rfl | skip
  case Start => rw [hid] at h1; cases h1
  case ParsingKey => rw [hid] at h1; cases h1
  case ParsingDone => rw [hid] at h1; cases h1
  case ParsingToken =>
    exfalso
    rw [if_neg (by rw [hid]; decide)] at hs
    split at hs
    · unfold tokStep at hs
      simp only [hid] at hs
      repeat' split at hs
      all_goals cases hs
    · split at hs
      · cases hs
      · refine trans_undef ?_ hs he
        intro h
        revert h2
        rw [h]
        generalize A.state = q
        cases q <;> simp [stm]

/-- There are at most as many unknown entities as characters. -/
theorem runs_undef {len : Nat} (hf : Ends f len) {calls : List (Nat × Bool)} {A : Cfg} {os : List (ElementType × Cfg)} (h : Runs e f calls A os) :
    Inv0 A → (∀ o ∈ os, o.1 = .ErrorOccurred → o.2.error = .ErrUndefinedCharacterEntity) →
    os.length ≤ (sound os).length + (len - A.src) := by
  induction h with
  | nil => intro _ _; simp
  | @cons mask c cs A B m r os h1 h2 ih =>
    intro hi he
    obtain ⟨A1, k1, k2⟩ := h1
    have hi1 := steps_inv k1 (hi.inv mask)
    have m1 := steps_mono k1
    have m2 := (step_shape k2).mono
    have := ih ((step_ret hi1 k2).clr c) fun o ho => he o (List.mem_cons_of_mem _ ho)
    rw [(clr_same c B).2.2] at this
    rw [sound_cons]
    by_cases hr : r = .ErrorOccurred
    · subst hr
      have hu := he _ (List.mem_cons_self ..) rfl
      have h3 := undef_ref hi1 k2 hu
      have h4 : inRef A.tok.id = false := by rcases hi.id with h | h <;> rw [h] <;> rfl
      rw [if_pos rfl]
      rcases steps_ref hf k1 h4 with h5 | h5
      · rw [h5] at h3; cases h3
      · simp only [List.length_cons]; omega
    · rw [if_neg hr]
      simp only [List.length_cons]
      omega

theorem stm_only_exit {q : STMState} {op : STMAction} {arg : ElementType} (h : (stm q).action = some (op, arg)) (ha : arg = .Exit) : q = .EXIT := by
  subst ha
  revert h
  cases q <;> simp [stm]

/-- The exit is the last item and only that. -/
theorem auto_last {q : STMState} {as : List Byte} {ts : List ElementType} (h : Auto q as ts) : ∃ w, ts = w ++ [.Exit] ∧ .Exit ∉ w := by
  have hc : ∀ {x : ElementType} {ts : List ElementType}, x ≠ .Exit → (∃ w, ts = w ++ [.Exit] ∧ .Exit ∉ w) →
      ∃ w, x :: ts = w ++ [.Exit] ∧ .Exit ∉ w := by
    rintro x ts hx ⟨w, rfl, hw⟩
    exact ⟨x :: w, rfl, fun h => (List.mem_cons.1 h).elim (fun h => hx h.symm) hw⟩
  induction h with
  | exit => exact ⟨[], rfl, List.not_mem_nil⟩
  | plain _ _ _ ih => exact ih
  | tok h1 h2 _ _ _ _ ih =>
    refine hc (fun h => ?_) ih
    rw [stm_only_exit h1 h] at h1
    cases h1; cases h2
  | @key q q' str as as' ts op arg h1 h2 h3 _ _ ih =>
    unfold keyTypes
    split
    · exact hc nofun ih
    · exact ih
  | ret0 h1 _ _ _ h2 _ ih =>
    refine hc (fun h => ?_) ih
    rw [stm_only_exit h1 h] at h2
    cases h2
  | ret h1 _ _ h2 _ _ ih =>
    refine hc (fun h => ?_) ih
    rw [stm_only_exit h1 h] at h2
    exact h2 (by decide)

theorem before_exit {w1 w2 : List ElementType} {r1 r2 : List ElementType} (h1 : .Exit ∉ w1) (h2 : .Exit ∉ w2)
    (h : w1 ++ .Exit :: r1 = w2 ++ .Exit :: r2) : w1 = w2 := by
  induction w1 generalizing w2 with
  | nil =>
    cases w2 with
    | nil => rfl
    | cons y w2 => simp only [List.nil_append, List.cons_append, List.cons.injEq] at h; exact absurd (h.1 ▸ List.mem_cons_self ..) h2
  | cons x w1 ih =>
    cases w2 with
    | nil => simp only [List.nil_append, List.cons_append, List.cons.injEq] at h; exact absurd (h.1 ▸ List.mem_cons_self ..) h1
    | cons y w2 =>
      simp only [List.cons_append, List.cons.injEq] at h
      rw [h.1, ih (fun h => h1 (List.mem_cons_of_mem _ h)) (fun h => h2 (List.mem_cons_of_mem _ h)) h.2]

end TW.Mach
