import Verif.Proofs.AcceptItems

/-!
# A scanner gives the texts the automaton tells

`step_forward` for the automaton with the characters of the tokens.
-/

namespace TW.AcceptItems

open Spec Mach Scanner
open Spec.Loose hiding Attr Mark Document Val Piece

variable {e : Enc} {f : Nat → Byte} {mask : Nat}

/-- Behind a transition. -/
def LNext (q : STMState) (rt : List Item) (as : List Byte) (ts : List Item) : Prop :=
  ∃ q' as' ts', Move q as q' as' ∧ LAuto q' as' ts' ∧ ts = rt ++ ts'

/-- What is left to read, in front of a configuration. -/
structure LLeft (A : Cfg) (as : List Byte) (ts : List Item) : Prop where
  start : A.tok.id = .Start → LAuto A.state as ts
  done : A.tok.id = .ParsingDone → ∃ rs : List Item, rs.map (·.1) = doneTypes A.state ∧
    (∀ x ∈ rs, ∀ t r, x.2 = some (t, r) → r = as) ∧ LNext A.state rs as ts
  key : A.tok.id = .ParsingKey → ∃ op arg str as', (stm A.state).action = some (op, arg) ∧ tokenDefs op = none ∧
    stringDefs op = some str ∧ as = str.drop A.tok.pos ++ as' ∧ LNext A.state (keyLabs op) as' ts
  tok : inTok A.tok.id = true → ∃ op arg isTok t as', (stm A.state).action = some (op, arg) ∧ tokenDefs op = some isTok ∧
    (∀ a ∈ t, inToken isTok a) ∧ (∀ b ∈ as'.head?, ¬ inToken isTok b) ∧ as = t ++ as' ∧ ∃ t0, LNext A.state [(arg, some (t0, as'))] as' ts

theorem LLeft.ofStart {B : Cfg} {as : List Byte} {ts : List Item} (h : B.tok.id = .Start) (ha : LAuto B.state as ts) : LLeft B as ts :=
  ⟨fun _ => ha, fun h' => (by rw [h] at h'; cases h'), fun h' => (by rw [h] at h'; cases h'), fun h' => absurd h' (inTok_ne h rfl)⟩

/-- The token in front of a state that reads one. -/
theorem LAuto.token' {q : STMState} {as : List Byte} {ts : List Item} {op : STMAction} {arg : ElementType} {isTok : Cc → Bool}
    (h : LAuto q as ts) (ha : (stm q).action = some (op, arg)) (ht : tokenDefs op = some isTok) :
    ∃ t as', (∀ a ∈ t, inToken isTok a) ∧ (∀ b ∈ as'.head?, ¬ inToken isTok b) ∧ as = t ++ as' ∧ LNext q [(arg, some (t, as'))] as' ts := by
  cases h with
  | exit => cases ha; cases ht
  | plain h => rw [ha] at h; cases h
  | @tok _ q' t as as' ts' op' arg' isTok' k1 k2 k3 k4 k5 k6 =>
    rw [ha] at k1; cases k1
    rw [ht] at k2; cases k2
    exact ⟨t, as, k3, k4, rfl, q', as', ts', k5, k6, rfl⟩
  | key h k => rw [ha] at h; cases h; rw [ht] at k; cases k
  | ret0 h k => rw [ha] at h; cases h; rw [ht] at k; cases k
  | ret h k => rw [ha] at h; cases h; rw [ht] at k; cases k

theorem tokStep_inRef {A B : Cfg} {isTok : Cc → Bool} {r : ElementType} (hk : A.tok.id ≠ .ParsingKey) (h : tokStep e f isTok A = (some r, B)) :
    inRef A.tok.id = true := by
  unfold tokStep at h
  simp only at h
  cases hid : A.tok.id <;> simp only [hid] at h hk ⊢
  case Start => cases h
  case ParsingDone => cases h
  case ParsingKey => exact absurd rfl hk
  case ParsingToken =>
    repeat' split at h
    all_goals cases h
  all_goals rfl

/-- A reference begins with an ampersand. -/
theorem step_amp {A B : Cfg} {r : Option ElementType} (h : step e f mask A = (r, B)) (hA : inRef A.tok.id = false) :
    inRef B.tok.id = false ∨ (uasc e f A.src = 38 ∧ inTok A.tok.id = true) := by
  unfold step at h
  simp only at h
  split at h
  · exact .inl (trans_ref h)
  · split at h
    · split at h
      · exact .inl (trans_ref h)
      · split at h
        · unfold tokStep at h
          cases hid : A.tok.id <;> simp only [hid] at h hA
          case Start => cases h; exact .inl rfl
          case ParsingToken =>
            split at h
            · cases h
              refine .inl ?_
              show inRef (charStep e f A).tok.id = false
              rw [charStep_id, hid]; rfl
            · split at h
              · rename_i hc
                cases h
                refine .inr ⟨?_, rfl⟩
                have := Accept.tells (uasc e f A.src)
                rw [show controlCharMap (uasc e f A.src) = .Amp from hc] at this
                exact this
              · cases h; exact .inl rfl
          case ParsingKey => cases h; exact .inl rfl
          case ParsingDone => cases h; exact .inl (by rw [hid]; rfl)
          all_goals cases hA
        · split at h
          · cases h; exact .inl hA
          · exact .inl (trans_ref h)
    · split at h
      · unfold keyStep at h
        simp only at h
        split at h
        · exact .inl (trans_ref h)
        · split at h
          · cases h
            split <;> exact .inl rfl
          · split at h
            · cases h; exact .inl rfl
            · cases h; exact .inl rfl
      · split at h
        · split at h <;> (cases h; exact .inl hA)
        · exact .inl (trans_ref (A := { A with tokenpos := A.src, out := [] }) h)

/-- The text of the first item may have become another one if it is not asked for. -/
def Fades (mask : Nat) (ts ts' : List Item) : Prop :=
  ts = ts' ∨ ∃ arg t t' r tl, ts = (arg, some (t, r)) :: tl ∧ ts' = (arg, some (t', r)) :: tl ∧ mask.testBit arg.toNat = false

theorem Fades.trans {ts1 ts2 ts3 : List Item} (h1 : Fades mask ts1 ts2) (h2 : Fades mask ts2 ts3) : Fades mask ts1 ts3 := by
  rcases h1 with rfl | ⟨arg, x, y, w, tl, rfl, rfl, h⟩
  · exact h2
  · rcases h2 with rfl | ⟨arg', x', y', w', tl', h3, rfl, h'⟩
    · exact .inr ⟨arg, x, y, w, tl, rfl, rfl, h⟩
    · cases h3
      exact .inr ⟨arg, x, y', w, tl, rfl, rfl, h⟩

theorem Fades.cons {ts ts' : List Item} {r : ElementType} {y : Option (List Byte × List Byte)} (h : Fades mask ts ((r, y) :: ts')) :
    ∃ x, ts = (r, x) :: ts' ∧ (mask.testBit r.toNat = true → x = y) := by
  rcases h with rfl | ⟨arg, x, y', w, tl, rfl, h2, h⟩
  · exact ⟨y, rfl, fun _ => rfl⟩
  · cases h2
    exact ⟨_, rfl, fun h' => by rw [h] at h'; cases h'⟩

/-- One step forwards. -/
theorem step_items {z : List Byte} {A B : Cfg} {r : Option ElementType} {n : Nat} {ts : List Item} (hz : n ≠ 0 ∨ z = []) (hi : Inv mask A)
    (hb : A.tok.id = .ParsingDone → Busy A.state) (hl : LLeft A (seen e f z A.src n) ts) (hs : step e f mask A = (r, B)) :
    (r = some .Exit ∧ ts = [(.Exit, none)] ∧ seen e f z A.src n = []) ∨
    (r = some .ErrorOccurred ∧ B.error = .ErrUndefinedCharacterEntity ∧ inRef A.tok.id = true) ∨
    (r ≠ some .Exit ∧ r ≠ some .ErrorOccurred ∧ ∃ n' rs ts', rs.map (·.1) = r.toList ∧ Fades mask ts (rs ++ ts') ∧ LLeft B (seen e f z B.src n') ts' ∧ Consumes e f A B n n') := by
  have hs0 := hs
  unfold step at hs
  simp only at hs
  have hidle : (¬ Busy A.state) → A.tok.id = .Start := by
    intro hn
    cases hid : A.tok.id
    · rfl
    · exact absurd (hb hid) hn
    · obtain ⟨str, op, ⟨arg, h1, h2, h3⟩, -⟩ := hi.key hid
      exact absurd ⟨op, arg, h1, .inr (by rw [h3]; nofun)⟩ hn
    all_goals
      obtain ⟨isTok, arg, op, h1, h2, -⟩ := hi.tok (by rw [hid]; rfl)
      exact absurd ⟨op, arg, h1, .inl (by rw [h2]; nofun)⟩ hn
  -- behind a transition
  have hgo : ∀ {A' : Cfg} {q' : STMState} {as' : List Byte} {rt : ElementType} {ts' : List Item}, A'.src = A.src ∧ A'.state = A.state →
      Move A.state (seen e f z A.src n) q' as' → LAuto q' as' ts' → trans e f (stm A.state) rt A' = (r, B) → rt ≠ .Exit → rt ≠ .ErrorOccurred →
      (∃ rs : List Item, rs.map (·.1) = (Scanner.loopEnd rt).toList ∧ ts = rs ++ ts') →
      (r ≠ some .Exit ∧ r ≠ some .ErrorOccurred ∧ ∃ n' rs ts', rs.map (·.1) = r.toList ∧ Fades mask ts (rs ++ ts') ∧ LLeft B (seen e f z B.src n') ts' ∧ Consumes e f A B n n') := by
    intro A' q' as' rt ts' h1 h2 h3 h4 h5 h6 ⟨rs, h7, h7'⟩
    rw [← h1.1, ← h1.2] at h2
    rw [← h1.2] at h4
    obtain ⟨k1, k2, k3, n', k4, k5⟩ := trans_forward hz h2 h4
    have h8 : r ≠ some .Exit ∧ r ≠ some .ErrorOccurred := by
      rw [k1]
      unfold Scanner.loopEnd
      split
      · exact ⟨nofun, nofun⟩
      · exact ⟨fun h => h5 (Option.some.inj h), fun h => h6 (Option.some.inj h)⟩
    refine ⟨h8.1, h8.2, n', rs, ts', by rw [k1]; exact h7, .inl h7', LLeft.ofStart k3 ?_, ?_⟩
    · rw [k2, ← k4]
      exact h3
    · unfold Consumes at k5 ⊢
      rw [h1.1, h1.2] at k5
      exact k5
  have hargs : ∀ op arg, (stm A.state).action = some (op, arg) → arg ≠ .ErrorOccurred := by
    intro op arg h
    generalize A.state = q at h
    cases q <;> simp only [stm, Option.some.injEq, Prod.mk.injEq, reduceCtorEq] at h <;> (obtain ⟨-, rfl⟩ := h; nofun)
  split at hs
  · rename_i ha
    have hn : ¬ Busy A.state := by rintro ⟨op, arg, h1, -⟩; rw [ha] at h1; cases h1
    have h1 := hl.start (hidle hn)
    generalize hq : A.state = q at h1 ha
    generalize hv : seen e f z A.src n = as at h1
    cases h1 with
    | plain _ h2 h3 =>
      subst hq hv
      exact .inr (.inr (hgo ⟨rfl, rfl⟩ h2 h3 hs nofun nofun ⟨[], rfl, rfl⟩))
    | exit => cases ha
    | tok h => rw [ha] at h; cases h
    | key h => rw [ha] at h; cases h
    | ret0 h => rw [ha] at h; cases h
    | ret h => rw [ha] at h; cases h
  · rename_i op arg ha
    have hre := hargs _ _ ha
    split at hs
    · rename_i isTok ht
      have harg := tok_arg _ _ _ ha (by rw [ht]; nofun)
      have hex : arg ≠ .Exit := by rintro rfl; have := exit_arg ha; rw [this] at ha; cases ha; cases ht
      split at hs
      · rename_i hid
        obtain ⟨rs, k0, -, q', as', ts', k1, k2, k3⟩ := hl.done hid
        refine .inr (.inr (hgo ⟨rfl, rfl⟩ k1 k2 hs hex hre ⟨rs, ?_, k3⟩))
        rw [k0]
        unfold doneTypes
        rw [ha]
        simp only [ht, reduceCtorEq, if_false]
        unfold Scanner.loopEnd
        rw [if_neg harg]
        rfl
      · rename_i hid
        by_cases hbit : mask.testBit arg.toNat = true
        case neg =>
          rw [if_neg hbit] at hs
          have hst := unread_start hi ha ht hid hbit
          obtain ⟨t, as', k1, k2, k3, k4⟩ := (hl.start hst).token' ha ht
          have hne : as' ≠ [] := by
            rintro rfl
            obtain ⟨q', as'', ts', (⟨b, m1, -⟩ | ⟨-, -, b, m1, -⟩), -⟩ := k4 <;> cases m1
          split at hs
          · rename_i hin
            rw [skips_in] at hin
            cases hs
            refine .inr (.inr ⟨nofun, nofun, ?_⟩)
            cases t with
            | nil =>
              exfalso
              cases as' with
              | nil => exact hne rfl
              | cons b as' =>
                obtain ⟨n', -, rfl, -⟩ := seen_cons hz k3
                exact k2 _ rfl hin
            | cons a t =>
              obtain ⟨n', rfl, rfl, k5⟩ := seen_cons hz k3
              obtain ⟨q', as'', ts', m1, m2, m3⟩ := k4
              refine ⟨n', [], (arg, some (t, as')) :: ts', rfl, .inr ⟨arg, _, _, _, ts', m3, rfl, by simpa using hbit⟩, LLeft.ofStart hst ?_, .inr ⟨rfl, rfl, fun h0 => ?_⟩⟩
              · show LAuto A.state (seen e f z (A.src + ulen e f A.src) n') _
                rw [← k5]
                exact .tok ha ht (fun x hx => k1 x (List.mem_cons_of_mem _ hx)) k2 m1 m2
              · exfalso
                rw [h0] at hin
                have hc : controlCharMap 0 = .EndOfText := by decide
                rcases hin with hin | hin
                · rw [hc, tok_end _ _ ht] at hin; cases hin
                · rw [hc] at hin; cases hin
          · rename_i hin
            rw [skips_in] at hin
            cases t with
            | cons a t =>
              obtain ⟨n', -, rfl, -⟩ := seen_cons hz k3
              exact absurd (k1 _ (List.mem_cons_self ..)) hin
            | nil =>
              obtain ⟨q', as'', ts', m1, m2, m3⟩ := k4
              refine .inr (.inr (hgo ⟨rfl, rfl⟩ (by rw [k3]; exact m1) m2 hs hex hre ⟨[(arg, _)], ?_, m3⟩))
              unfold Scanner.loopEnd
              rw [if_neg harg]
              rfl
        rw [if_pos hbit] at hs
        have hkey : A.tok.id ≠ .ParsingKey := by
          intro hk
          obtain ⟨str, op', ⟨arg', k1, k2, k3⟩, -⟩ := hi.key hk
          rw [ha] at k1; cases k1; rw [ht] at k2; cases k2
        -- the token that is left
        have hrest : ∃ t as', (∀ a ∈ t, inToken isTok a) ∧ (∀ b ∈ as'.head?, ¬ inToken isTok b) ∧
            seen e f z A.src n = t ++ as' ∧ ∃ t0, LNext A.state [(arg, some (t0, as'))] as' ts := by
          by_cases hin : inTok A.tok.id = true
          · obtain ⟨op', arg', isTok', t, as', k1, k2, k3, k6, k4, k5⟩ := hl.tok hin
            rw [ha] at k1; cases k1
            rw [ht] at k2; cases k2
            exact ⟨t, as', k3, k6, k4, k5⟩
          · have hst : A.tok.id = .Start := by
              cases h : A.tok.id <;> rw [h] at hin hid hkey <;> first | rfl | exact absurd rfl hid | exact absurd rfl hkey | exact absurd rfl hin
            obtain ⟨t, as', g1, g2, g3, g4⟩ := (hl.start hst).token' ha ht
            exact ⟨t, as', g1, g2, g3, _, g4⟩
        obtain ⟨t, as', k1, k2, k3, x, k4⟩ := hrest
        cases r with
        | some x =>
          obtain ⟨rfl, h1⟩ := tokStep_some hkey hs
          exact .inr (.inl ⟨rfl, h1, tokStep_inRef hkey hs⟩)
        | none =>
          obtain ⟨h1, h2⟩ := tokStep_reads ht hi.base hid hs
          refine .inr (.inr ⟨nofun, nofun, ?_⟩)
          have hok : ∀ {n' : Nat} {t' : List Byte}, inTok B.tok.id = true → (∀ a ∈ t', inToken isTok a) → seen e f z B.src n' = t' ++ as' →
              LLeft B (seen e f z B.src n') ts := by
            intro n' t' h3 h4 h5
            refine ⟨fun h => absurd h3 (inTok_ne h rfl), fun h => absurd h3 (inTok_ne h rfl), fun h => absurd h3 (inTok_ne h rfl), fun _ => ?_⟩
            exact ⟨op, arg, isTok, t', as', by rw [h1]; exact ha, ht, h4, k2, h5, x, by rw [h1]; exact k4⟩
          have hne : as' ≠ [] := by
            rintro rfl
            obtain ⟨q', as'', ts', (⟨b, m1, -⟩ | ⟨-, -, b, m1, -⟩), -⟩ := k4 <;> cases m1
          rcases h2 with ⟨h3, h4 | ⟨h4, h5⟩⟩ | ⟨h3, h4, h5⟩
          · exact ⟨n, [], ts, rfl, .inl rfl, hok h4 k1 (by rw [h3]; exact k3), .inl ⟨rfl, h3⟩⟩
          · cases t with
            | cons a t =>
              obtain ⟨n', -, rfl, -⟩ := seen_cons hz k3
              exact absurd (k1 _ (List.mem_cons_self ..)) h5
            | nil =>
              refine ⟨n, [], ts, rfl, .inl rfl, ⟨fun h => ?_, fun _ => ⟨[(arg, some (x, as'))], ?_, ?_, ?_⟩, fun h => ?_, fun h => ?_⟩, .inl ⟨rfl, h3⟩⟩
              · rw [h4] at h; cases h
              · rw [h1]
                unfold doneTypes
                rw [ha]
                simp only [ht, reduceCtorEq, if_false]
                rfl
              · intro y hy t r hyr
                cases List.mem_singleton.1 hy
                cases hyr
                rw [h3, k3]
                rfl
              · rw [h1, h3, k3]; exact k4
              · rw [h4] at h; cases h
              · exact absurd h (inTok_ne h4 rfl)
          · cases t with
            | nil =>
              exfalso
              cases as' with
              | nil => exact hne rfl
              | cons b as' =>
                obtain ⟨n', -, rfl, -⟩ := seen_cons hz k3
                exact k2 _ rfl h5
            | cons a t =>
              obtain ⟨n', rfl, rfl, k5⟩ := seen_cons hz k3
              refine ⟨n', [], ts, rfl, .inl rfl, hok h4 (fun x hx => k1 x (List.mem_cons_of_mem _ hx)) (by rw [h3]; exact k5.symm), .inr ⟨rfl, h3, fun h0 => ?_⟩⟩
              exfalso
              rw [h0] at h5
              have hc : controlCharMap 0 = .EndOfText := by decide
              rcases h5 with h5 | h5
              · rw [hc, tok_end _ _ ht] at h5; cases h5
              · rw [hc] at h5; cases h5
    · rename_i ht
      split at hs
      · rename_i str hstr
        have hntok : ¬ inTok A.tok.id = true := by
          intro h
          obtain ⟨isTok, arg', op', h1, h2, -⟩ := hi.tok h
          rw [ha] at h1; cases h1; rw [ht] at h2; cases h2
        have hdone : doneTypes A.state = keyTypes op := by unfold doneTypes; rw [ha]; simp only [ht, if_true]
        unfold keyStep at hs
        simp only at hs
        split at hs
        · rename_i hid
          obtain ⟨rs, k0, -, q', as', ts', k1, k2, k3⟩ := hl.done hid
          refine .inr (.inr (hgo ⟨rfl, rfl⟩ k1 k2 hs (by split <;> nofun) (by split <;> nofun) ⟨rs, ?_, k3⟩))
          rw [k0, hdone]
          unfold keyTypes Scanner.loopEnd
          by_cases ho : op = .ExpectIdentifierXML
          · simp only [ho, if_true, reduceCtorEq, if_false]; rfl
          · simp only [ho, if_false, if_true]; rfl
        · rename_i hid
          have hrest : ∃ as', seen e f z A.src n = str.drop A.tok.pos ++ as' ∧ LNext A.state (keyLabs op) as' ts := by
            cases hid' : A.tok.id
            · have h0 : A.tok.pos = 0 := hi.pos0 (by rw [hid']; rfl)
              rw [h0]
              have h1 := hl.start hid'
              generalize hq : A.state = q at h1 ha
              generalize hv : seen e f z A.src n = as at h1
              cases h1 with
              | exit => cases ha; cases hstr
              | plain h => rw [ha] at h; cases h
              | tok h k => rw [ha] at h; cases h; rw [ht] at k; cases k
              | @key _ q' str' as as' ts' op' arg' k1 k2 k3 k4 k5 =>
                rw [ha] at k1; cases k1
                rw [hstr] at k3; cases k3
                exact ⟨as, rfl, q', as', ts', k4, k5, rfl⟩
              | ret0 h _ k => rw [ha] at h; cases h; rw [hstr] at k; cases k
              | ret h _ k => rw [ha] at h; cases h; rw [hstr] at k; cases k
            · exact absurd hid' hid
            · obtain ⟨op', arg', str', as', k1, k2, k3, k4, k5⟩ := hl.key hid'
              rw [ha] at k1; cases k1
              rw [hstr] at k3; cases k3
              exact ⟨as', k4, k5⟩
            all_goals exact absurd (by rw [hid']; rfl) hntok
          obtain ⟨as', k1, k2⟩ := hrest
          split at hs
          · rename_i hpos
            rw [List.drop_eq_nil_of_le (List.getElem?_eq_none_iff.1 hpos)] at k1
            have hB : B.state = A.state ∧ B.src = A.src ∧ B.tok.id = .ParsingDone ∧ r = none := by
              cases hs
              split <;> exact ⟨rfl, rfl, rfl, rfl⟩
            obtain ⟨h1, h2, h3, rfl⟩ := hB
            refine .inr (.inr ⟨nofun, nofun, n, [], ts, rfl, .inl rfl, ⟨fun h => ?_, fun _ => ⟨keyLabs op, ?_, ?_, ?_⟩, fun h => ?_, fun h => ?_⟩, .inl ⟨rfl, h2⟩⟩)
            · rw [h3] at h; cases h
            · rw [h1, hdone]; unfold keyLabs; rw [List.map_map]; exact List.map_id _
            · intro y hy t r hyr
              obtain ⟨w, -, rfl⟩ := List.mem_map.1 hy
              cases hyr
            · rw [h1, h2, k1]; exact k2
            · rw [h3] at h; cases h
            · exact absurd h (inTok_ne h3 rfl)
          · rename_i c hc
            have hlt := (List.getElem?_eq_some_iff.1 hc).1
            have hce := (List.getElem?_eq_some_iff.1 hc).2
            rw [List.drop_eq_getElem_cons hlt, hce] at k1
            obtain ⟨n', rfl, k3, k4⟩ := seen_cons hz k1
            have hsm : c < 128 := str_small hstr c (hce ▸ List.getElem_mem hlt)
            have hasc : asc e f A = c := by
              unfold asc
              rw [← k3, if_pos hsm]
            rw [if_pos hasc] at hs
            cases hs
            refine .inr (.inr ⟨nofun, nofun, n', [], ts, rfl, .inl rfl, ⟨nofun, nofun, fun _ => ?_, nofun⟩, .inr ⟨rfl, rfl, fun h0 => ?_⟩⟩)
            · exact ⟨op, arg, str, as', ha, ht, hstr, k4.symm, k2⟩
            · rw [← k3] at h0
              exact absurd (h0 ▸ hce ▸ List.getElem_mem hlt) (str_pos hstr).1
      · rename_i hstr
        have hn : ¬ Busy A.state := by
          rintro ⟨op', arg', h1, h2⟩
          rw [ha] at h1; cases h1
          rcases h2 with h2 | h2
          · exact h2 ht
          · exact h2 hstr
        have hid := hidle hn
        have h1 := hl.start hid
        by_cases hx' : arg = .Exit
        · subst hx'
          have hq := exit_arg ha
          rw [hq] at hs h1
          cases hs
          refine .inl ⟨rfl, ?_⟩
          generalize seen e f z A.src n = as at h1
          cases h1 with
          | exit => exact ⟨rfl, rfl⟩
          | plain h => cases h
          | tok h k => cases h; cases k
          | key h _ k => cases h; cases k
          | ret0 _ _ _ _ k => cases k
          | ret _ _ _ k => exact absurd rfl k
        · obtain ⟨hnone, hfall⟩ := ret_fallback _ _ _ ha ht hstr hx'
          generalize hq : A.state = q at h1 ha
          generalize hv : seen e f z A.src n = as at h1
          cases h1 with
          | exit => cases ha; exact absurd rfl hx'
          | plain h => rw [ha] at h; cases h
          | tok h k => rw [ha] at h; cases h; rw [ht] at k; cases k
          | key h _ k => rw [ha] at h; cases h; rw [hstr] at k; cases k
          | @ret0 _ q' _ ts' op' arg' k1 k2 k3 k4 k5 k6 =>
            rw [ha] at k1; cases k1
            subst hq hv
            rw [if_pos k4, k5] at hs
            cases hs
            refine .inr (.inr ⟨fun h => hx' (Option.some.inj h), fun h => hre (Option.some.inj h), n, [(arg, none)], ts', rfl, .inl rfl, LLeft.ofStart hid k6, .inl ⟨rfl, rfl⟩⟩)
          | @ret _ q' _ as' ts' op' arg' k1 k2 k3 k4 k5 k6 =>
            rw [ha] at k1; cases k1
            subst hq hv
            rw [if_neg k4] at hs
            refine .inr (.inr (hgo (A' := { A with tokenpos := A.src, out := [] }) ⟨rfl, rfl⟩ k5 k6 hs hx' hre ⟨[(arg, none)], ?_, rfl⟩))
            unfold Scanner.loopEnd
            rw [if_neg hnone]
            rfl


/-! ## Sequences of calls -/

/-- What is kept in a run on a text of `N` characters. -/
structure LGoes (e : Enc) (f : Nat → Byte) (mask N : Nat) (A : Cfg) (ts : List Item) : Prop where
  inv : Mach.Inv mask A
  busy : A.tok.id = .ParsingDone → Busy A.state
  left : ∃ n ts2, n ≤ N ∧ A.src = offs e f 0 (N - n) ∧ Fades mask ts ts2 ∧ LLeft A (view e f A.src n) ts2
  ref : 38 ∉ view e f 0 N → inRef A.tok.id = false

theorem view_drop {N n : Nat} (h : n ≤ N) : view e f 0 N = view e f 0 (N - n) ++ view e f (offs e f 0 (N - n)) n := by
  unfold view
  rw [← List.map_append, ← chars_add, Nat.sub_add_cancel h]

theorem LLeft.congr {A B : Cfg} {as : List Byte} {ts : List Item} (h1 : B.tok = A.tok) (h2 : B.state = A.state) (h : LLeft A as ts) : LLeft B as ts := by
  refine ⟨?_, ?_, ?_, ?_⟩
  · rw [h1, h2]; exact h.start
  · rw [h1, h2]; exact h.done
  · rw [h1, h2]; exact h.key
  · rw [h1, h2]; exact h.tok

/-- One step. -/
theorem LGoes.step {N : Nat} {A B : Cfg} {ts : List Item} {r : Option ElementType} (h : LGoes e f mask N A ts)
    (hs : Mach.step e f mask A = (r, B)) :
    (r = some .Exit ∧ ∃ x, ts = [(.Exit, x)]) ∨ (r = some .ErrorOccurred ∧ 38 ∈ view e f 0 N) ∨
    (r ≠ some .Exit ∧ r ≠ some .ErrorOccurred ∧ ∃ n' rs ts', n' ≤ N ∧ B.src = offs e f 0 (N - n') ∧ rs.map (·.1) = r.toList ∧ Fades mask ts (rs ++ ts') ∧
      LLeft B (view e f B.src n') ts' ∧ (B.tok.id = .ParsingDone → Busy B.state) ∧ (38 ∉ view e f 0 N → inRef B.tok.id = false)) := by
  obtain ⟨n, ts2, hn, hsrc, hfa, hl⟩ := h.left
  have hl' := hl
  rw [← seen_nil] at hl'
  rcases step_items (.inr rfl) h.inv h.busy hl' hs with ⟨k1, k2, -⟩ | ⟨k1, -, k2⟩ | ⟨k1, k2, n', rs, ts', k3, k4, k5, k6⟩
  · subst k2
    obtain ⟨x, hx, -⟩ := hfa.cons
    exact .inl ⟨k1, x, hx⟩
  · refine .inr (.inl ⟨k1, Decidable.byContradiction fun h38 => ?_⟩)
    rw [h.ref h38] at k2; cases k2
  · rw [seen_nil] at k5
    refine .inr (.inr ⟨k1, k2, n', rs, ts', ?_, ?_, k3, hfa.trans k4, k5, (step_left h.inv h.busy hs k2 k1).1, fun h38 => ?_⟩)
    · rcases k6 with ⟨rfl, -⟩ | ⟨rfl, -⟩ <;> omega
    · rcases k6 with ⟨rfl, h1⟩ | ⟨rfl, h1, -⟩
      · rw [h1, hsrc]
      · rw [h1, hsrc, show N - n' = (N - (n' + 1)) + 1 by omega]; rfl
    · rcases step_amp hs (h.ref h38) with h1 | ⟨h1, h2⟩
      · exact h1
      · exfalso
        obtain ⟨op, arg, isTok, t, as', -, -, -, -, g1, x, q', as'', ts'', g2, -⟩ := hl.tok h2
        cases n with
        | zero =>
          have : as' = [] := by
            have h0 : ([] : List Byte) = t ++ as' := g1
            exact (List.append_eq_nil_iff.1 h0.symm).2
          subst this
          rcases g2 with ⟨b, m1, -⟩ | ⟨-, -, b, m1, -⟩ <;> cases m1
        | succ n =>
          apply h38
          rw [view_drop hn, ← hsrc, view_succ, h1]
          simp

theorem LGoes.steps {N m : Nat} {A B : Cfg} {ts : List Item} (hs : Steps e f mask m A B)
    (h : LGoes e f mask N A ts) : LGoes e f mask N B ts := by
  induction hs with
  | refl => exact h
  | cons h1 _ ih =>
    refine ih ?_
    rcases h.step h1 with ⟨k1, -⟩ | ⟨k1, -⟩ | ⟨-, -, n', rs, ts', k1, k2, k3, k4, k5, k6, k7⟩
    · cases k1
    · cases k1
    · have : rs = [] := List.map_eq_nil_iff.1 k3
      subst this
      exact ⟨step_inv h.inv h1, k6, ⟨n', ts', k1, k2, k4, k5⟩, k7⟩

/-- The text of an item: it begins where the token begins, `t` are the characters of the token and `as` what is behind it. -/
structure TextAt (e : Enc) (f : Nat → Byte) (user : Option UChar) (output : Enc) (N : Nat) (t as : List Byte) (B : Cfg) : Prop where
  le : (t ++ as).length ≤ N
  pos : B.tokenpos = offs e f 0 (N - (t ++ as).length)
  chs : (chars e f B.tokenpos t.length).map Ch.asc = t
  out : ∀ ss : List Seg, ss.flatMap Seg.text = chars e f B.tokenpos t.length →
    SegsOk user (as.headD 0) ss → B.out = value e output ss

/-- A call. -/
theorem LGoes.call {N m : Nat} {A B : Cfg} {r : ElementType} {ts : List Item} (h : LGoes e f mask N A ts) (hid : Idle A)
    (hts : ∀ x ∈ ts, x.2 ≠ none → kindsOf x.1 ≠ [])
    (hs : Fin e f mask m A r B) (c : Bool) :
    (r = .Exit ∧ (∃ x, ts = [(.Exit, x)]) ∧ B.state = .EXIT) ∨ (r = .ErrorOccurred ∧ 38 ∈ view e f 0 N) ∨
    (r ≠ .Exit ∧ r ≠ .ErrorOccurred ∧ ∃ x ts', ts = (r, x) :: ts' ∧ (∀ mask', LGoes e f mask' N (clr c B) ts') ∧
      (mask.testBit r.toNat = true → ∀ t as, x = some (t, as) → TextAt e f (userChar A) A.output N t as B)) := by
  have hs' := hs
  obtain ⟨A1, h1, h2⟩ := hs
  have h3 := h.steps h1
  have h0 := (step_ret h3.inv h2).clr c
  obtain ⟨e1, e2, e3⟩ := clr_same c B
  rcases h3.step h2 with ⟨k1, k2⟩ | ⟨k1, k2⟩ | ⟨j1, j2, n', rs, ts', k1, k2, k3, k4, k5, k6, k7⟩
  · cases k1
    refine .inl ⟨rfl, k2, ?_⟩
    have := step_exits h2
    rw [step_at_exit this] at h2
    cases h2
    exact this
  · cases k1
    exact .inr (.inl ⟨rfl, k2⟩)
  · obtain ⟨y, rfl⟩ : ∃ x, rs = [(r, x)] := by
      cases rs with
      | nil => cases k3
      | cons y ys =>
        obtain ⟨y1, y2⟩ := y
        cases ys with
        | nil => cases k3; exact ⟨_, rfl⟩
        | cons => cases k3
    obtain ⟨x, k4', -⟩ := k4.cons
    refine .inr (.inr ⟨fun h => j1 (congrArg some h), fun h => j2 (congrArg some h), x, ts', k4', fun mask' => ⟨h0.inv mask', ?_, ⟨n', ts', k1, ?_, .inl rfl, ?_⟩, ?_⟩, ?_⟩)
    · rw [e1, e2]; exact k6
    · rw [e3]; exact k2
    · rw [e3]; exact k5.congr e1 e2
    · rw [e1]; exact k7
    · rintro hbit t as rfl
      have hkr : kindsOf r ≠ [] := hts (r, some (t, as)) (by rw [k4']; simp) nofun
      obtain ⟨i, C, n, isTok, c1, c2, c3, c4, c5⟩ := fin_token h.inv hid hs' hkr hbit
      obtain ⟨op, a1, a2, a3⟩ := c3
      obtain ⟨kind, -, g2⟩ := kind_of_reads _ (STMState.mem_all _) _ _ a1 (by rw [a2]; simp)
      have hC := h.steps c1
      obtain ⟨n, ts2, hn, hsrc, hfa, hl⟩ := hC.left
      obtain ⟨t', as', b1, b2, b3, q', as'', ts'', b4, b5, b6⟩ := (hl.start c4).token' a1 a2
      rw [k4', b6] at hfa
      obtain ⟨x, w1, w2⟩ := Fades.cons hfa
      cases w1
      cases w2 hbit
      have hlen : (t ++ as).length = n := by
        rw [← b3]; unfold view; rw [List.length_map, chars_length]
      have hne : as ≠ [] := by
        rintro rfl
        rcases b4 with ⟨b, m1, -⟩ | ⟨-, -, b, m1, -⟩ <;> cases m1
      have hsp : n = t.length + as.length := by rw [← hlen, List.length_append]
      have hv : view e f C.src n = view e f C.src t.length ++ view e f (offs e f C.src t.length) as.length := by
        unfold view; rw [hsp, chars_add, List.map_append]
      have hvl : ∀ k l, (view e f k l).length = l := fun k l => by unfold view; rw [List.length_map, chars_length]
      rw [hv] at b3
      obtain ⟨v1, v2⟩ := List.append_inj b3 (hvl _ _)
      have hhead : uasc e f (offs e f C.src t.length) = as.headD 0 := by
        cases as with
        | nil => exact absurd rfl hne
        | cons a as => rw [List.length_cons, view_succ] at v2; exact (List.cons.inj v2).1
      have hsame := steps_same c1
      refine ⟨by omega, ?_, ?_, ?_⟩
      · rw [← c5, hsrc, hlen]
      · rw [← c5]; exact v1
      · intro ss hss hok
        rw [← c5] at hss
        rw [← hsame.1]
        refine token_value (steps_inv c1 h.inv) a1 a3 g2 c4 c2 hkr (l := t.length) ?_ ?_ hss (by rw [hsame.user, hhead]; exact hok)
        · intro c hc
          refine (Accept.inToken_iff a2 g2 _).1 (b1 _ ?_)
          rw [← v1]
          exact List.mem_map_of_mem hc
        · rw [hhead]
          cases as with
          | nil => exact absurd rfl hne
          | cons a as =>
            have := b2 a rfl
            rw [Accept.inToken_iff a2 g2] at this
            simpa using this

/-- The items of a run with their texts. -/
theorem runs_items {N : Nat} {calls : List (Nat × Bool)} {A : Cfg} {os : List (ElementType × Cfg)} (h : Runs e f calls A os) :
    ∀ {ts : List Item}, Idle A → (∀ mask, LGoes e f mask N A ts) →
    (∀ x ∈ ts, x.2 ≠ none → kindsOf x.1 ≠ []) →
    (38 ∉ view e f 0 N → ∀ o ∈ os, o.1 ≠ .ErrorOccurred) ∧
    ∀ i r B x, os[i]? = some (r, B) → ts[i]? = some x → (∀ o ∈ os.take (i + 1), o.1 ≠ .ErrorOccurred) →
      x.1 = r ∧ ∀ mask c, calls[i]? = some (mask, c) → mask.testBit r.toNat = true → ∀ t as, x.2 = some (t, as) → TextAt e f (userChar A) A.output N t as B := by
  induction h with
  | nil =>
    intro ts _ _ _
    exact ⟨fun _ o ho => absurd ho List.not_mem_nil, fun i r B x ho => by cases ho⟩
  | @cons mask c cs A B0 m r0 os h1 h2 ih =>
    intro ts hid hg hts
    rcases (hg mask).call hid hts h1 c with ⟨rfl, ⟨x1, rfl⟩, k1⟩ | ⟨rfl, k1⟩ | ⟨k1, k2, x0, ts', rfl, k3, k4⟩
    · have hx := runs_exit h2 (by rw [(clr_same c B0).2.1]; exact k1)
      refine ⟨fun _ o ho => ?_, ?_⟩
      · rcases List.mem_cons.1 ho with rfl | ho
        · nofun
        · rw [hx o ho]; nofun
      · intro i r B x ho hx' _
        cases i with
        | zero => cases ho; cases hx'; exact ⟨rfl, fun _ _ _ _ t as hxx => absurd (hts (.Exit, x1) (List.mem_cons_self ..) (by rw [hxx]; nofun)) (fun h => h rfl)⟩
        | succ i => cases hx'
    · refine ⟨fun h38 => absurd k1 h38, ?_⟩
      intro i r B x _ _ he
      exact absurd rfl (he _ (by simp : (ElementType.ErrorOccurred, B0) ∈ _))
    · obtain ⟨C, s1, s2⟩ := h1
      have hs := ((steps_same s1).trans (step_same s2)).trans (Same.clr c)
      obtain ⟨g1, g2⟩ := ih ((step_idle s2).clr c) k3 (fun x hx => hts x (List.mem_cons_of_mem _ hx))
      refine ⟨fun h38 o ho => ?_, ?_⟩
      · rcases List.mem_cons.1 ho with rfl | ho
        · exact k2
        · exact g1 h38 o ho
      · intro i r B x ho hx' he
        cases i with
        | zero => cases ho; cases hx'; exact ⟨rfl, fun mask' c' hc hb => by cases hc; exact k4 hb⟩
        | succ i =>
          have := g2 i r B x ho hx' (fun o ho => he o (by simp [ho]))
          rw [hs.user, hs.1] at this
          exact this

theorem LAuto.kinds {q : STMState} {as : List Byte} {ts : List Item} (h : LAuto q as ts) : ∀ x ∈ ts, x.2 ≠ none → kindsOf x.1 ≠ [] := by
  induction h with
  | exit => intro x hx; cases List.mem_singleton.1 hx; intro h; exact absurd rfl h
  | plain _ _ _ ih => exact ih
  | tok h1 h2 _ _ _ _ ih =>
    intro x hx
    rcases List.mem_cons.1 hx with rfl | hx
    · intro _ h0
      obtain ⟨kind, g1, -⟩ := kind_of_reads _ (STMState.mem_all _) _ _ h1 (by rw [h2]; nofun)
      have h0 : kindsOf _ = [] := h0
      rw [h0] at g1; cases g1
    · exact ih x hx
  | key _ _ _ _ _ ih =>
    intro x hx
    rcases List.mem_append.1 hx with hx | hx
    · obtain ⟨y, -, rfl⟩ := List.mem_map.1 hx; intro h; exact absurd rfl h
    · exact ih x hx
  | ret0 _ _ _ _ _ _ ih =>
    intro x hx
    rcases List.mem_cons.1 hx with rfl | hx
    · intro h; exact absurd rfl h
    · exact ih x hx
  | ret _ _ _ _ _ _ ih =>
    intro x hx
    rcases List.mem_cons.1 hx with rfl | hx
    · intro h; exact absurd rfl h
    · exact ih x hx

theorem LGoes.new {output : Enc} {em : Option (List (Nat × UChar))} {addr N : Nat} {ts : List Item} (h : LAuto .START (view e f 0 N) ts) (mask : Nat) :
    LGoes e f mask N (Cfg.new output em addr) ts :=
  ⟨(Inv0.new output em addr).inv mask, nofun, ⟨N, ts, Nat.le_refl _, by rw [Nat.sub_self]; rfl, .inl rfl, LLeft.ofStart rfl h⟩, fun _ => rfl⟩

/-! ## The automaton has no choice -/

theorem move_unique {q q1 q2 : STMState} {as as1 as2 : List Byte} (h1 : Move q as q1 as1) (h2 : Move q as q2 as2) : q1 = q2 ∧ as1 = as2 := by
  rcases h1 with ⟨b, rfl, h1⟩ | ⟨rfl, f1, b, g1, h1⟩
  · rcases h2 with ⟨b', h3, h2⟩ | ⟨rfl, f2, b', g2, h2⟩
    · cases h3; rw [h1] at h2; cases h2; exact ⟨rfl, rfl⟩
    · cases g2; rw [h1] at h2; cases h2
  · rcases h2 with ⟨b', rfl, h2⟩ | ⟨rfl, f2, b', g2, h2⟩
    · cases g1; rw [h1] at h2; cases h2
    · rw [f1] at f2; cases f2; exact ⟨rfl, rfl⟩

theorem split_unique {P : Byte → Prop} : ∀ {t1 t2 as1 as2 : List Byte}, (∀ a ∈ t1, P a) → (∀ a ∈ t2, P a) → (∀ b ∈ as1.head?, ¬ P b) →
    (∀ b ∈ as2.head?, ¬ P b) → t1 ++ as1 = t2 ++ as2 → t1 = t2 ∧ as1 = as2
  | [], [], _, _, _, _, _, _, h => ⟨rfl, h⟩
  | [], b :: t2, as1, as2, _, h2, h3, _, h => by
    have h : as1 = b :: (t2 ++ as2) := h
    subst h
    exact absurd (h2 b (List.mem_cons_self ..)) (h3 b rfl)
  | a :: t1, [], as1, as2, h1, _, _, h4, h => by
    have h : a :: (t1 ++ as1) = as2 := h
    subst h
    exact absurd (h1 a (List.mem_cons_self ..)) (h4 a rfl)
  | a :: t1, b :: t2, as1, as2, h1, h2, h3, h4, h => by
    obtain ⟨rfl, hh⟩ := List.cons.inj (show a :: (t1 ++ as1) = b :: (t2 ++ as2) from h)
    obtain ⟨rfl, rfl⟩ := split_unique (fun x hx => h1 x (List.mem_cons_of_mem _ hx)) (fun x hx => h2 x (List.mem_cons_of_mem _ hx)) h3 h4 hh
    exact ⟨rfl, rfl⟩

theorem LAuto.unique {q : STMState} {as : List Byte} {ts : List Item} (h : LAuto q as ts) : ∀ {ts' : List Item}, LAuto q as ts' → ts = ts' := by
  induction h with
  | exit =>
    intro ts' h'
    generalize ha : ([] : List Byte) = as0 at h'
    cases h' with
    | exit => rfl
    | plain h => cases h
    | tok h k => cases h; cases k
    | key h _ k => cases h; cases k
    | ret0 _ _ _ _ k => cases k
    | ret _ _ _ k => exact absurd rfl k
  | @plain q q1 as as1 ts h1 hm _ ih =>
    intro ts' h'
    generalize ha : as = as0 at h'
    cases h' with
    | exit => cases h1
    | plain _ hm' h' => subst ha; obtain ⟨rfl, rfl⟩ := move_unique hm hm'; exact ih h'
    | tok h => rw [h1] at h; cases h
    | key h => rw [h1] at h; cases h
    | ret0 h => rw [h1] at h; cases h
    | ret h => rw [h1] at h; cases h
  | @tok q q1 t as as1 ts op arg isTok h1 h2 h3 h4 hm _ ih =>
    intro ts' h'
    obtain ⟨t', as', k1, k2, k3, q', as'', ts'', k4, k5, rfl⟩ := h'.token' h1 h2
    obtain ⟨rfl, rfl⟩ := split_unique h3 k1 h4 k2 k3
    obtain ⟨rfl, rfl⟩ := move_unique hm k4
    rw [ih k5]
    rfl
  | @key q q1 str as as1 ts op arg h1 h2 h3 hm _ ih =>
    intro ts' h'
    generalize ha : str ++ as = as0 at h'
    cases h' with
    | exit => cases h1; cases h3
    | plain h => rw [h1] at h; cases h
    | tok h k => rw [h1] at h; cases h; rw [h2] at k; cases k
    | key h _ k hm' h' =>
      rw [h1] at h; cases h
      rw [h3] at k; cases k
      have := List.append_cancel_left ha
      subst this
      obtain ⟨rfl, rfl⟩ := move_unique hm hm'
      rw [ih h']
    | ret0 h _ k => rw [h1] at h; cases h; rw [h3] at k; cases k
    | ret h _ k => rw [h1] at h; cases h; rw [h3] at k; cases k
  | @ret0 q q1 as ts op arg h1 h2 h3 h4 h5 _ ih =>
    intro ts' h'
    generalize ha : as = as0 at h'
    cases h' with
    | exit => cases h1; cases h5
    | plain h => rw [h1] at h; cases h
    | tok h k => rw [h1] at h; cases h; rw [h2] at k; cases k
    | key h _ k => rw [h1] at h; cases h; rw [h3] at k; cases k
    | ret0 h _ _ _ k h' => rw [h1] at h; cases h; rw [h5] at k; cases k; subst ha; rw [ih h']
    | ret h _ _ k => exact absurd h4 k
  | @ret q q1 as as1 ts op arg h1 h2 h3 h4 hm _ ih =>
    intro ts' h'
    generalize ha : as = as0 at h'
    cases h' with
    | exit => exact absurd rfl h4
    | plain h => rw [h1] at h; cases h
    | tok h k => rw [h1] at h; cases h; rw [h2] at k; cases k
    | key h _ k => rw [h1] at h; cases h; rw [h3] at k; cases k
    | ret0 _ _ _ k => exact absurd k h4
    | ret h _ _ _ hm' h' => rw [h1] at h; cases h; subst ha; obtain ⟨rfl, rfl⟩ := move_unique hm hm'; rw [ih h']

theorem move_append {q q' : STMState} {as as' : List Byte} (h : Move q as q' as') (z : List Byte) : Move q (as ++ z) q' (as' ++ z) := by
  rcases h with ⟨b, rfl, h⟩ | ⟨rfl, h1, b, h2, h3⟩
  · exact .inl ⟨b, rfl, h⟩
  · refine .inr ⟨rfl, h1, b, ?_, h3⟩
    cases as' with
    | nil => cases h2
    | cons => exact h2

theorem move_head {q q' : STMState} {as as' : List Byte} (h : Move q as q' as') (z : List Byte) : (as ++ z).head? = as.head? := by
  cases as with
  | nil => rcases h with ⟨b, h, -⟩ | ⟨-, -, b, h, -⟩ <;> cases h
  | cons => rfl

/-- No text that leads to the exit begins with another one. -/
theorem LAuto.prefix {q : STMState} {as : List Byte} {ts : List Item} (h : LAuto q as ts) : ∀ {z : List Byte} {ts' : List Item}, LAuto q (as ++ z) ts' → z = [] := by
  induction h with
  | exit =>
    intro z ts' h'
    generalize ha : [] ++ z = as0 at h'
    cases h' with
    | exit => exact ha
    | plain h => cases h
    | tok h k => cases h; cases k
    | key h _ k => cases h; cases k
    | ret0 _ _ _ _ k => cases k
    | ret _ _ _ k => exact absurd rfl k
  | @plain q q1 as as1 ts h1 hm _ ih =>
    intro z ts' h'
    generalize ha : as ++ z = as0 at h'
    cases h' with
    | exit => cases h1
    | plain _ hm' h' => subst ha; obtain ⟨rfl, rfl⟩ := move_unique (move_append hm z) hm'; exact ih h'
    | tok h => rw [h1] at h; cases h
    | key h => rw [h1] at h; cases h
    | ret0 h => rw [h1] at h; cases h
    | ret h => rw [h1] at h; cases h
  | @tok q q1 t as as1 ts op arg isTok h1 h2 h3 h4 hm _ ih =>
    intro z ts' h'
    obtain ⟨t', as', k1, k2, k3, q', as'', ts'', k4, k5, rfl⟩ := h'.token' h1 h2
    rw [List.append_assoc] at k3
    obtain ⟨rfl, rfl⟩ := split_unique h3 k1 (by rw [move_head hm]; exact h4) k2 k3
    obtain ⟨rfl, rfl⟩ := move_unique (move_append hm z) k4
    exact ih k5
  | @key q q1 str as as1 ts op arg h1 h2 h3 hm _ ih =>
    intro z ts' h'
    generalize ha : str ++ as ++ z = as0 at h'
    cases h' with
    | exit => cases h1; cases h3
    | plain h => rw [h1] at h; cases h
    | tok h k => rw [h1] at h; cases h; rw [h2] at k; cases k
    | key h _ k hm' h' =>
      rw [h1] at h; cases h
      rw [h3] at k; cases k
      rw [List.append_assoc] at ha
      have := List.append_cancel_left ha
      subst this
      obtain ⟨rfl, rfl⟩ := move_unique (move_append hm z) hm'
      exact ih h'
    | ret0 h _ k => rw [h1] at h; cases h; rw [h3] at k; cases k
    | ret h _ k => rw [h1] at h; cases h; rw [h3] at k; cases k
  | @ret0 q q1 as ts op arg h1 h2 h3 h4 h5 _ ih =>
    intro z ts' h'
    generalize ha : as ++ z = as0 at h'
    cases h' with
    | exit => cases h1; cases h5
    | plain h => rw [h1] at h; cases h
    | tok h k => rw [h1] at h; cases h; rw [h2] at k; cases k
    | key h _ k => rw [h1] at h; cases h; rw [h3] at k; cases k
    | ret0 h _ _ _ k h' => rw [h1] at h; cases h; rw [h5] at k; cases k; subst ha; exact ih h'
    | ret h _ _ k => exact absurd h4 k
  | @ret q q1 as as1 ts op arg h1 h2 h3 h4 hm _ ih =>
    intro z ts' h'
    generalize ha : as ++ z = as0 at h'
    cases h' with
    | exit => exact absurd rfl h4
    | plain h => rw [h1] at h; cases h
    | tok h k => rw [h1] at h; cases h; rw [h2] at k; cases k
    | key h _ k => rw [h1] at h; cases h; rw [h3] at k; cases k
    | ret0 _ _ _ k => exact absurd k h4
    | ret h _ _ _ hm' h' => rw [h1] at h; cases h; subst ha; obtain ⟨rfl, rfl⟩ := move_unique (move_append hm z) hm'; exact ih h'

end TW.AcceptItems
