import Verif.Proofs.AcceptItemsRun
import Verif.Proofs.FirstError

/-!
# The items at the beginning of a document

`LGoes` for a text of which only the first characters are the ones of the document.
-/

namespace TW.AcceptItems

open Spec Mach Scanner
open Spec.Loose hiding Attr Mark Document Val Piece

variable {e : Enc} {f : Nat → Byte} {mask : Nat} {z : List Byte}

/-- There is an item with a token that ends in front of more than `z`. -/
def Near (z : List Byte) (ts : List Item) : Prop := ∃ x ∈ ts, ∃ t r, x.2 = some (t, r) ∧ z.length < r.length

theorem move_length {q q' : STMState} {as as' : List Byte} (h : Move q as q' as') : as'.length ≤ as.length := by
  rcases h with ⟨b, rfl, -⟩ | ⟨rfl, -⟩
  · exact Nat.le_succ _
  · exact Nat.le_refl _

/-- What is behind a token is a part of the text. -/
theorem LAuto.rest {q : STMState} {as : List Byte} {ts : List Item} (h : LAuto q as ts) :
    ∀ x ∈ ts, ∀ t r, x.2 = some (t, r) → r.length ≤ as.length := by
  induction h with
  | exit => intro x hx t r h; cases List.mem_singleton.1 hx; cases h
  | plain _ hm _ ih => intro x hx t r h; exact Nat.le_trans (ih x hx t r h) (move_length hm)
  | tok _ _ _ _ hm _ ih =>
    intro x hx t r h
    rw [List.length_append]
    rcases List.mem_cons.1 hx with rfl | hx
    · cases h; exact Nat.le_add_left _ _
    · have := ih x hx t r h
      have := move_length hm
      omega
  | key _ _ _ hm _ ih =>
    intro x hx t r h
    rw [List.length_append]
    rcases List.mem_append.1 hx with hx | hx
    · obtain ⟨y, -, rfl⟩ := List.mem_map.1 hx; cases h
    · have := ih x hx t r h
      have := move_length hm
      omega
  | ret0 _ _ _ _ _ _ ih =>
    intro x hx t r h
    rcases List.mem_cons.1 hx with rfl | hx
    · cases h
    · exact ih x hx t r h
  | ret _ _ _ _ hm _ ih =>
    intro x hx t r h
    rcases List.mem_cons.1 hx with rfl | hx
    · cases h
    · exact Nat.le_trans (ih x hx t r h) (move_length hm)

theorem LNext.rest {q : STMState} {rs : List Item} {as : List Byte} {ts : List Item} (h : LNext q rs as ts)
    (hr : ∀ x ∈ rs, ∀ t r, x.2 = some (t, r) → r = as) : ∀ x ∈ ts, ∀ t r, x.2 = some (t, r) → r.length ≤ as.length := by
  obtain ⟨q', as', ts', hm, ha, rfl⟩ := h
  intro x hx t r h
  rcases List.mem_append.1 hx with hx | hx
  · rw [hr x hx t r h]; exact Nat.le_refl _
  · exact Nat.le_trans (ha.rest x hx t r h) (move_length hm)

theorem LLeft.rest {A : Cfg} {as : List Byte} {ts : List Item} (h : LLeft A as ts) : ∀ x ∈ ts, ∀ t r, x.2 = some (t, r) → r.length ≤ as.length := by
  have htok : inTok A.tok.id = true → ∀ x ∈ ts, ∀ t r, x.2 = some (t, r) → r.length ≤ as.length := by
    intro hid x hx t r hr
    obtain ⟨op, arg, isTok, t', as', -, -, -, -, rfl, t0, h1⟩ := h.tok hid
    have := h1.rest (fun y hy t r hy' => by cases List.mem_singleton.1 hy; cases hy'; rfl) x hx t r hr
    rw [List.length_append]
    omega
  cases hid : A.tok.id
  · exact (h.start hid).rest
  · obtain ⟨rs, -, h1, h2⟩ := h.done hid
    exact h2.rest h1
  · intro x hx t r hr
    obtain ⟨op, arg, str, as', -, -, -, rfl, h1⟩ := h.key hid
    have := h1.rest (fun y hy t r hy' => by obtain ⟨w, -, rfl⟩ := List.mem_map.1 hy; cases hy') x hx t r hr
    rw [List.length_append]
    omega
  all_goals exact htok (by rw [hid]; rfl)

theorem Near.fades {ts ts' : List Item} (h : Near z ts) (hf : Fades mask ts ts') : Near z ts' := by
  rcases hf with rfl | ⟨arg, t, t', r, tl, rfl, rfl, -⟩
  · exact h
  · obtain ⟨x, hx, s, u, h1, h2⟩ := h
    rcases List.mem_cons.1 hx with rfl | hx
    · cases h1; exact ⟨_, List.mem_cons_self .., _, _, rfl, h2⟩
    · exact ⟨x, List.mem_cons_of_mem _ hx, s, u, h1, h2⟩

/-- There is a character to read in front of an item that is near. -/
theorem LLeft.some {A : Cfg} {n : Nat} {ts : List Item} (h : LLeft A (seen e f z A.src n) ts) (hn : Near z ts) : n ≠ 0 := by
  rintro rfl
  obtain ⟨x, hx, t, r, h1, h2⟩ := hn
  have h3 : r.length ≤ z.length := h.rest x hx t r h1
  omega

/-- What is kept in a run on a text of which the first `N` characters are read. -/
structure BGoes (e : Enc) (f : Nat → Byte) (mask N : Nat) (z : List Byte) (A : Cfg) (ts : List Item) : Prop where
  inv : Mach.Inv mask A
  busy : A.tok.id = .ParsingDone → Busy A.state
  left : ∃ n ts2, n ≤ N ∧ A.src = offs e f 0 (N - n) ∧ Fades mask ts ts2 ∧ LLeft A (seen e f z A.src n) ts2

theorem offs_less {N n : Nat} (h0 : n ≠ 0) (h : n ≤ N) : offs e f 0 (N - n) < offs e f 0 N := by
  obtain ⟨n, rfl⟩ : ∃ m, n = m + 1 := ⟨n - 1, by omega⟩
  have h1 : offs e f 0 N = offs e f (offs e f 0 (N - (n + 1))) (n + 1) := by rw [← offs_add, Nat.sub_add_cancel h]
  rw [h1, offs_succ]
  have := ulen_pos e f (offs e f 0 (N - (n + 1)))
  have := offs_le (e := e) (f := f) (offs e f 0 (N - (n + 1)) + ulen e f (offs e f 0 (N - (n + 1)))) n
  omega

/-- In front of an item that is near the characters of the text are not all read. -/
theorem BGoes.before {N : Nat} {A : Cfg} {ts : List Item} (h : BGoes e f mask N z A ts) (hn : Near z ts) : A.src < offs e f 0 N := by
  obtain ⟨n, ts2, hN, hsrc, hfa, hl⟩ := h.left
  rw [hsrc]
  exact offs_less (hl.some (hn.fades hfa)) hN

/-- One step. -/
theorem BGoes.step {N : Nat} {A B : Cfg} {ts : List Item} {r : Option ElementType} (h : BGoes e f mask N z A ts) (hn : A.src < offs e f 0 N)
    (hs : Mach.step e f mask A = (r, B)) :
    (r = some .ErrorOccurred ∧ B.error = .ErrUndefinedCharacterEntity) ∨
    (r ≠ some .Exit ∧ r ≠ some .ErrorOccurred ∧ ∃ n' rs ts', n' ≤ N ∧ B.src = offs e f 0 (N - n') ∧ rs.map (·.1) = r.toList ∧ Fades mask ts (rs ++ ts') ∧
      LLeft B (seen e f z B.src n') ts' ∧ (B.tok.id = .ParsingDone → Busy B.state)) := by
  obtain ⟨n, ts2, hN, hsrc, hfa, hl⟩ := h.left
  have hn0 : n ≠ 0 := by
    rintro rfl
    rw [hsrc] at hn
    exact Nat.lt_irrefl _ hn
  rcases step_items (.inl hn0) h.inv h.busy hl hs with ⟨-, -, k1⟩ | ⟨k1, k2, -⟩ | ⟨k1, k2, n', rs, ts', k3, k4, k5, k6⟩
  · exfalso
    cases n with
    | zero => exact hn0 rfl
    | succ n => cases k1
  · exact .inl ⟨k1, k2⟩
  · refine .inr ⟨k1, k2, n', rs, ts', ?_, ?_, k3, hfa.trans k4, k5, (step_left h.inv h.busy hs k2 k1).1⟩
    · rcases k6 with ⟨rfl, -⟩ | ⟨rfl, -⟩ <;> omega
    · rcases k6 with ⟨rfl, h1⟩ | ⟨rfl, h1, -⟩
      · rw [h1, hsrc]
      · rw [h1, hsrc, show N - n' = (N - (n' + 1)) + 1 by omega]; rfl

theorem BGoes.silent {N : Nat} {A B : Cfg} {ts : List Item} (h : BGoes e f mask N z A ts) (hn : A.src < offs e f 0 N)
    (hs : Mach.step e f mask A = (none, B)) : BGoes e f mask N z B ts := by
  rcases h.step hn hs with ⟨k1, -⟩ | ⟨-, -, n', rs, ts', k1, k2, k3, k4, k5, k6⟩
  · cases k1
  · have : rs = [] := List.map_eq_nil_iff.1 k3
    subst this
    exact ⟨step_inv h.inv hs, k6, ⟨n', ts', k1, k2, k4, k5⟩⟩

theorem BGoes.steps {N m : Nat} {A B : Cfg} {ts : List Item} (hs : Steps e f mask m A B) (hn : Near z ts)
    (h : BGoes e f mask N z A ts) : BGoes e f mask N z B ts := by
  induction hs with
  | refl => exact h
  | cons h1 _ ih => exact ih (h.silent (h.before hn) h1)

theorem BGoes.stepsTo {N m : Nat} {A B : Cfg} {ts : List Item} (hs : Steps e f mask m A B) (hn : B.src < offs e f 0 N)
    (h : BGoes e f mask N z A ts) : BGoes e f mask N z B ts := by
  induction hs with
  | refl => exact h
  | cons h1 h2 ih => exact ih hn (h.silent (Nat.lt_of_le_of_lt (steps_mono (.cons h1 h2)) hn) h1)

/-- A call. -/
theorem BGoes.call {N m : Nat} {A B : Cfg} {r : ElementType} {ts : List Item} (h : BGoes e f mask N z A ts) (hid : Idle A)
    (hts : ∀ x ∈ ts, x.2 ≠ none → kindsOf x.1 ≠ [])
    (hs : Fin e f mask m A r B) (c : Bool)
    (hC : ∀ k C, Steps e f mask k A C → (∃ m, Fin e f mask m C r B) → BGoes e f mask N z C ts ∧ C.src < offs e f 0 N) :
    (r = .ErrorOccurred ∧ B.error = .ErrUndefinedCharacterEntity) ∨
    (r ≠ .Exit ∧ r ≠ .ErrorOccurred ∧ ∃ x ts', ts = (r, x) :: ts' ∧ (∀ mask', BGoes e f mask' N z (clr c B) ts') ∧
      (mask.testBit r.toNat = true → ∀ t as, x = some (t, as) → TextAt e f (userChar A) A.output (N + z.length) t as B)) := by
  have hs' := hs
  obtain ⟨A1, h1, h2⟩ := hs
  obtain ⟨h3, hp⟩ := hC _ _ h1 ⟨0, A1, .refl _, h2⟩
  have h0 := (step_ret h3.inv h2).clr c
  obtain ⟨e1, e2, e3⟩ := clr_same c B
  rcases h3.step hp h2 with ⟨k1, k2⟩ | ⟨j1, j2, n', rs, ts', k1, k2, k3, k4, k5, k6⟩
  · cases k1
    exact .inl ⟨rfl, k2⟩
  · obtain ⟨y, rfl⟩ : ∃ x, rs = [(r, x)] := by
      cases rs with
      | nil => cases k3
      | cons y ys =>
        obtain ⟨y1, y2⟩ := y
        cases ys with
        | nil => cases k3; exact ⟨_, rfl⟩
        | cons => cases k3
    obtain ⟨x, k4', -⟩ := k4.cons
    refine .inr ⟨fun h => j1 (congrArg some h), fun h => j2 (congrArg some h), x, ts', k4', fun mask' => ⟨h0.inv mask', ?_, ⟨n', ts', k1, ?_, .inl rfl, ?_⟩⟩, ?_⟩
    · rw [e1, e2]; exact k6
    · rw [e3]; exact k2
    · rw [e3]; exact k5.congr e1 e2
    · rintro hbit t as rfl
      have hkr : kindsOf r ≠ [] := hts (r, some (t, as)) (by rw [k4']; simp) nofun
      obtain ⟨i, C, n, isTok, c1, c2, c3, c4, c5⟩ := fin_token h.inv hid hs' hkr hbit
      obtain ⟨op, a1, a2, a3⟩ := c3
      obtain ⟨kind, -, g2⟩ := kind_of_reads _ (STMState.mem_all _) _ _ a1 (by rw [a2]; simp)
      obtain ⟨n, ts2, hN, hsrc, hfa, hl⟩ := (hC _ _ c1 ⟨_, c2⟩).1.left
      have hlong : z.length < as.length := by
        obtain ⟨isTok', ⟨op', d1, d2, -⟩, d3, -⟩ := step_token h3.inv h2 hkr hbit
        obtain ⟨n1, ts3, hN1, hsrc1, hfa1, hl1⟩ := h3.left
        have hn1 : n1 ≠ 0 := by
          rintro rfl
          rw [hsrc1] at hp
          exact Nat.lt_irrefl _ hp
        obtain ⟨rs, d4, d5, q', as', ts', -, -, d6⟩ := hl1.done d3
        have d7 : rs.map (·.1) = [r] := by
          rw [d4]
          unfold doneTypes
          rw [d1]
          simp only [d2, reduceCtorEq, if_false]
        cases rs with
        | nil => cases d7
        | cons y ys =>
          obtain ⟨y1, y2⟩ := y
          obtain ⟨rfl, -⟩ := List.cons.inj d7
          rw [k4', d6] at hfa1
          obtain ⟨w, v1, v2⟩ := Fades.cons (ts' := ys ++ ts') hfa1
          obtain ⟨v3, -⟩ := List.cons.inj v1
          obtain ⟨-, v3⟩ := Prod.mk.inj v3
          have v4 := v2 hbit
          rw [← v3] at v4
          rw [d5 (y1, y2) (List.mem_cons_self ..) t as v4.symm]
          unfold seen
          rw [List.length_append]
          unfold view
          rw [List.length_map, chars_length]
          omega
      obtain ⟨t', as', b1, b2, b3, hnext⟩ := (hl.start c4).token' a1 a2
      obtain ⟨q', as'', ts'', b4, b5, b6⟩ := hnext
      rw [k4', b6] at hfa
      obtain ⟨x, w1, w2⟩ := Fades.cons hfa
      cases w1
      cases w2 hbit
      have hvl : ∀ k l, (view e f k l).length = l := fun k l => by unfold view; rw [List.length_map, chars_length]
      have hlen : (t ++ as).length = n + z.length := by
        rw [← b3]; unfold seen; rw [List.length_append, hvl]
      rw [List.length_append] at hlen
      obtain ⟨l, rfl⟩ : ∃ l, n = t.length + (l + 1) := ⟨n - t.length - 1, by omega⟩
      have hv : seen e f z C.src (t.length + (l + 1)) = view e f C.src t.length ++ seen e f z (offs e f C.src t.length) (l + 1) := by
        unfold seen view; rw [chars_add, List.map_append, List.append_assoc]
      rw [hv] at b3
      obtain ⟨v1, v2⟩ := List.append_inj b3 (hvl _ _)
      rw [seen_succ] at v2
      have hhead : uasc e f (offs e f C.src t.length) = as.headD 0 := by rw [← v2]; rfl
      have hsame := steps_same c1
      refine ⟨by rw [List.length_append]; omega, ?_, ?_, ?_⟩
      · rw [← c5, hsrc, List.length_append]
        congr 1
        omega
      · rw [← c5]; exact v1
      · intro ss hss hok
        rw [← c5] at hss
        rw [← hsame.1]
        refine token_value (steps_inv c1 h.inv) a1 a3 g2 c4 c2 hkr (l := t.length) ?_ ?_ hss (by rw [hsame.user, hhead]; exact hok)
        · intro c hc
          refine (Accept.inToken_iff a2 g2 _).1 (b1 _ ?_)
          rw [← v1]
          exact List.mem_map_of_mem hc
        · have := b2 (uasc e f (offs e f C.src t.length)) (by rw [← v2]; rfl)
          rw [Accept.inToken_iff a2 g2] at this
          simpa using this

/-- The items of a run with their texts. -/
theorem runs_begin {N : Nat} {calls : List (Nat × Bool)} {A : Cfg} {os : List (ElementType × Cfg)} (h : Runs e f calls A os) :
    ∀ {ts : List Item}, Idle A → (∀ mask, BGoes e f mask N z A ts) → (∀ x ∈ ts, x.2 ≠ none → kindsOf x.1 ≠ []) →
    ∀ i r B x, os[i]? = some (r, B) → ts[i]? = some x → Near z (ts.drop i) → (∀ o ∈ os.take i, o.1 ≠ .ErrorOccurred) →
      (r = .ErrorOccurred ∧ B.error = .ErrUndefinedCharacterEntity) ∨
      (x.1 = r ∧ ∀ mask c, calls[i]? = some (mask, c) → mask.testBit r.toNat = true → ∀ t as, x.2 = some (t, as) →
        TextAt e f (userChar A) A.output (N + z.length) t as B) := by
  induction h with
  | nil => intro ts _ _ _ i r B x ho; cases ho
  | @cons mask c cs A B0 m r0 os h1 h2 ih =>
    intro ts hid hg hts i r B x ho hx hn he
    have hn0 : Near z ts := by
      obtain ⟨y, hy, h⟩ := hn
      exact ⟨y, List.mem_of_mem_drop hy, h⟩
    rcases (hg mask).call hid hts h1 c (fun k C hk _ => ⟨(hg mask).steps hk hn0, ((hg mask).steps hk hn0).before hn0⟩) with ⟨rfl, k1⟩ | ⟨k1, k2, x0, ts', rfl, k3, k4⟩
    · cases i with
      | zero => cases ho; exact .inl ⟨rfl, k1⟩
      | succ i => exact absurd rfl (he (ElementType.ErrorOccurred, B0) (by simp))
    · obtain ⟨C, s1, s2⟩ := h1
      have hs := ((steps_same s1).trans (step_same s2)).trans (Same.clr c)
      cases i with
      | zero => cases ho; cases hx; exact .inr ⟨rfl, fun mask' c' hc hb => by cases hc; exact k4 hb⟩
      | succ i =>
        have := ih ((step_idle s2).clr c) k3 (fun x hx => hts x (List.mem_cons_of_mem _ hx)) i r B x ho hx hn (fun o ho => he o (by simp [ho]))
        rw [hs.user, hs.1] at this
        exact this

theorem BGoes.new {output : Enc} {em : Option (List (Nat × UChar))} {addr N : Nat} {ts : List Item} (h : LAuto .START (seen e f z 0 N) ts) (mask : Nat) :
    BGoes e f mask N z (Cfg.new output em addr) ts :=
  ⟨(Inv0.new output em addr).inv mask, nofun, ⟨N, ts, Nat.le_refl _, by rw [Nat.sub_self]; rfl, .inl rfl, LLeft.ofStart rfl h⟩⟩

/-! ## In front of an error -/

/-- The states of the text between tags: there all characters are accepted. -/
def calm (q : STMState) : Bool := q = .DOCSTART || q = .CONTENT || q = .SEEKTOK || q = .TOKEN

theorem trans_stay {A B : Cfg} {sd : Elem} {rt : ElementType} {r : Option ElementType} (h : Mach.trans e f sd rt A = (r, B)) (hsrc : B.src = A.src) :
    (B.state = A.state ∧ r = some .ErrorOccurred ∧ sd.fallback = none) ∨ sd.fallback = some B.state := by
  unfold Mach.trans at h
  simp only at h
  split at h
  · cases h
    have h1 : A.src + ulen e f A.src = A.src := hsrc
    have := ulen_pos e f A.src
    omega
  · split at h
    · rename_i hfb
      cases h
      exact .inr hfb
    · rename_i hfb
      split at h <;> (cases h; exact .inl ⟨rfl, rfl, hfb⟩)

theorem tokStep_state {A B : Cfg} {isTok : Cc → Bool} {r : Option ElementType} (h : tokStep e f isTok A = (r, B)) : B.state = A.state := by
  unfold tokStep at h
  repeat' (first | split at h | (cases h; first | rfl | exact (charStep_same A).2) | dsimp only at h)

/-- A step that reads no character. -/
theorem step_stay {A B : Cfg} {r : Option ElementType} (hi : Inv mask A) (h : Mach.step e f mask A = (r, B)) (hsrc : B.src = A.src) (hx : r ≠ some .Exit) :
    (B.state = A.state ∧ (r = none ∨ r = some .ErrorOccurred)) ∨ ((stm A.state).fallback = some B.state ∧ (r = none ∨ (stm A.state).action ≠ none)) := by
  have hnn : Scanner.loopEnd .None = none := rfl
  have htr : ∀ {A' : Cfg} {rt : ElementType}, A'.state = A.state → A'.src = A.src → Mach.trans e f (stm A.state) rt A' = (r, B) →
      (stm A.state).action ≠ none →
      (B.state = A.state ∧ (r = none ∨ r = some .ErrorOccurred)) ∨ ((stm A.state).fallback = some B.state ∧ (r = none ∨ (stm A.state).action ≠ none)) := by
    intro A' rt h1 h2 h3 h4
    rcases trans_stay h3 (by rw [hsrc, h2]) with ⟨k1, k2, -⟩ | k1
    · exact .inl ⟨by rw [k1, h1], .inr k2⟩
    · exact .inr ⟨k1, .inr h4⟩
  unfold Mach.step at h
  simp only at h
  split at h
  · rcases trans_stay h hsrc with ⟨k1, k2, -⟩ | k1
    · exact .inl ⟨k1, .inr k2⟩
    · refine .inr ⟨k1, .inl ?_⟩
      unfold Mach.trans at h
      simp only at h
      split at h
      · cases h; rfl
      · rw [k1] at h
        exact (congrArg Prod.fst h).symm
  · rename_i op arg ha
    have hact : (stm A.state).action ≠ none := by rw [ha]; nofun
    split at h
    · split at h
      · exact htr rfl rfl h hact
      · rename_i hid
        split at h
        · refine .inl ⟨tokStep_state h, ?_⟩
          cases r with
          | none => exact .inl rfl
          | some r =>
            rename_i isTok ht _
            have hkey : A.tok.id ≠ .ParsingKey := by
              intro hk
              obtain ⟨str, op', ⟨arg', k1, k2, k3⟩, -⟩ := hi.key hk
              rw [ha] at k1; cases k1; rw [ht] at k2; cases k2
            exact .inr (by rw [(tokStep_some hkey h).1])
        · split at h
          · cases h
            exact .inl ⟨rfl, .inl rfl⟩
          · exact htr rfl rfl h hact
    · split at h
      · unfold keyStep at h
        simp only at h
        split at h
        · exact htr rfl rfl h hact
        · split at h
          · cases h
            refine .inl ⟨?_, .inl rfl⟩
            split <;> rfl
          · split at h
            · cases h; exact .inl ⟨rfl, .inl rfl⟩
            · cases h; exact .inl ⟨rfl, .inr rfl⟩
      · split at h
        · rename_i ht hstr hnof
          have harg : arg ≠ .Exit := by
            rintro rfl
            exact hx (congrArg Prod.fst h).symm
          obtain ⟨fb, hfb⟩ : ∃ fb, (stm A.state).fallback = some fb := by
            generalize A.state = q at ha hnof
            cases q <;> first
              | exact ⟨_, rfl⟩
              | (cases ha; exact absurd rfl harg)
              | (cases hnof; done)
          rw [hfb] at h
          cases h
          exact .inr ⟨hfb, .inr hact⟩
        · exact htr (A' := { A with tokenpos := A.src, out := [] }) rfl rfl h hact

theorem calm_fallback : ∀ q ∈ STMState.all, ∀ fb ∈ (stm q).fallback, ((stm q).action ≠ none ∨ calm q = true) → calm fb = true := by
  decide +kernel

/-- Behind an item that was returned without reading a character. -/
theorem item_calm {A B : Cfg} {r : ElementType} (hi : Inv mask A) (h : Mach.step e f mask A = (some r, B)) (hsrc : B.src = A.src)
    (hr : r ≠ .ErrorOccurred) (hx : r ≠ .Exit) : calm B.state = true := by
  rcases step_stay hi h hsrc (fun h => hx (Option.some.inj h)) with ⟨-, k | k⟩ | ⟨k1, k2 | k2⟩
  · cases k
  · exact absurd (Option.some.inj k) hr
  · cases k2
  · exact calm_fallback _ (STMState.mem_all _) _ k1 (.inl k2)

theorem stay_calm {A B : Cfg} {r : Option ElementType} (hi : Inv mask A) (h : Mach.step e f mask A = (r, B)) (hsrc : B.src = A.src)
    (hx : r ≠ some .Exit) (hc : calm A.state = true) : calm B.state = true := by
  rcases step_stay hi h hsrc hx with ⟨k, -⟩ | ⟨k, -⟩
  · rw [k]; exact hc
  · exact calm_fallback _ (STMState.mem_all _) _ k (.inr hc)

/-- Between tags there are no errors but unknown entities. -/
theorem calm_error {A B : Cfg} (hi : Inv mask A) (h : Mach.step e f mask A = (some .ErrorOccurred, B)) (hc : calm A.state = true) :
    B.error = .ErrUndefinedCharacterEntity := by
  have hfb : (stm A.state).fallback ≠ none := by
    generalize A.state = q at hc
    cases q <;> first | (cases hc; done) | nofun
  have hsrc := step_err_src h
  have htr : ∀ {rt : ElementType}, rt ≠ .ErrorOccurred → Mach.trans e f (stm A.state) rt A ≠ (some .ErrorOccurred, B) := by
    intro rt hrt h0
    have hl : Scanner.loopEnd rt ≠ some .ErrorOccurred := by
      unfold Scanner.loopEnd
      split
      · nofun
      · exact fun h => hrt (Option.some.inj h)
    unfold Mach.trans at h0
    simp only at h0
    split at h0
    · exact hl (congrArg Prod.fst h0)
    · split at h0
      · exact hl (congrArg Prod.fst h0)
      · rename_i h1; exact hfb h1
  have hcase : (stm A.state).action = none ∨ (stm A.state).action = some (.ReturnContent, .Content) := by
    generalize A.state = q at hc
    cases q <;> first | (cases hc; done) | exact .inl rfl | exact .inr rfl
  unfold Mach.step at h
  simp only at h
  rcases hcase with ha | ha
  · rw [ha] at h
    exact absurd h (htr nofun)
  · rw [ha] at h
    simp only at h
    split at h
    · rename_i isTok ht
      have hkey : A.tok.id ≠ .ParsingKey := by
        intro hk
        obtain ⟨str, op', ⟨arg', k1, k2, k3⟩, -⟩ := hi.key hk
        rw [ha] at k1; cases k1; rw [ht] at k2; cases k2
      split at h
      · exact absurd h (htr nofun)
      · split at h
        · exact (tokStep_some hkey h).2
        · split at h
          · cases h
          · exact absurd h (htr nofun)
    · rename_i ht
      cases ht

/-- A run between tags that reads no character stays there. -/
theorem calm_to {E : Cfg} {last mask : Nat} {A : Cfg} {us : List ElementType} (h : PassesTo e f (fun m X _ => X = E ∧ m = last) mask A us) :
    Inv mask A → calm A.state = true → A.src = E.src → Inv last E ∧ calm E.state = true := by
  induction h with
  | base h => obtain ⟨rfl, rfl⟩ := h; exact fun hi hc _ => ⟨hi, hc⟩
  | @silent mask A B ts hs hp ih =>
    intro hi hc hsrc
    have h1 := (step_shape hs).mono
    have h2 := hp.mono
    have h3 : B.src = A.src := by omega
    exact ih (step_inv hi hs) (stay_calm hi hs h3 nofun hc) (by omega)
  | @item mask mask' A B r ts c hs hr hx hp ih =>
    intro hi hc hsrc
    obtain ⟨e1, e2, e3⟩ := clr_same c B
    have h1 := (step_shape hs).mono
    have h2 := hp.mono
    rw [e3] at h2
    have h3 : B.src = A.src := by omega
    exact ih (((step_ret hi hs).clr c).inv mask') (by rw [e2]; exact item_calm hi hs h3 hr hx) (by rw [e3]; omega)
  | @undef mask mask' A B ts c hs he hp ih =>
    intro hi hc hsrc
    obtain ⟨e1, e2, e3⟩ := clr_same c B
    obtain ⟨-, h2, h3, -⟩ := step_undef hi hs he
    exact ih (((step_ret hi hs).clr c).inv mask') (by rw [e2, h2]; exact hc) (by rw [e3, h3]; exact hsrc)

/-- An item in front of an error is returned before the place of the error is reached. -/
theorem item_before {E A B B' : Cfg} {last mask mask' : Nat} {c : Bool} {r : ElementType} {us : List ElementType} (hi : Inv mask A)
    (hs : Mach.step e f mask A = (some r, B)) (hr : r ≠ .ErrorOccurred) (hx : r ≠ .Exit)
    (hp : PassesTo e f (fun m X _ => X = E ∧ m = last) mask' (clr c B) us)
    (hE : Mach.step e f last E = (some .ErrorOccurred, B')) (he : B'.error ≠ .ErrUndefinedCharacterEntity) : A.src < E.src := by
  obtain ⟨e1, e2, e3⟩ := clr_same c B
  have h1 := (step_shape hs).mono
  have h2 := hp.mono
  rw [e3] at h2
  apply Nat.lt_of_le_of_ne (Nat.le_trans h1 h2)
  intro h0
  have h3 : B.src = A.src := by omega
  obtain ⟨k1, k2⟩ := calm_to hp (((step_ret hi hs).clr c).inv mask') (by rw [e2]; exact item_calm hi hs h3 hr hx) (by rw [e3]; omega)
  exact he (calm_error k1 hE k2)

/-- The items in front of an error with their texts. -/
theorem runs_before {N : Nat} {last : Nat × Bool} {B : Cfg} (hB : B.src = offs e f 0 N) (he : B.error ≠ .ErrUndefinedCharacterEntity) :
    ∀ {calls : List (Nat × Bool)} {A : Cfg} {os : List (ElementType × Cfg)} {ts : List Item},
    Runs e f (calls ++ [last]) A (os ++ [(.ErrorOccurred, B)]) → (∀ o ∈ os, o.1 ≠ .ErrorOccurred) → .Exit ∉ os.map (·.1) →
    Idle A → (∀ mask, BGoes e f mask N z A ts) → (∀ x ∈ ts, x.2 ≠ none → kindsOf x.1 ≠ []) →
    ∀ (i : Nat) (o : ElementType × Cfg), os[i]? = some o → ∃ x, ts[i]? = some x ∧ x.1 = o.1 ∧ ∀ (mask : Nat) (c : Bool), calls[i]? = some (mask, c) → mask.testBit o.1.toNat = true →
      ∀ t as, x.2 = some (t, as) → TextAt e f (userChar A) A.output (N + z.length) t as o.2 := by
  intro calls
  induction calls with
  | nil =>
    intro A os ts h
    cases os with
    | nil => intro _ _ _ _ _ i o ho; cases ho
    | cons o os => cases h with | cons _ h2 => cases os <;> cases h2
  | cons x cs ih =>
    intro A os ts h hg hx hid hgo hts i o ho
    cases os with
    | nil => cases ho
    | cons o1 os =>
      obtain ⟨r1, B1⟩ := o1
      cases h with
      | @cons mask c _ _ _ m _ _ h1 h2 =>
        have hr1 : r1 ≠ .ErrorOccurred := hg _ (List.mem_cons_self ..)
        have hx1 : r1 ≠ .Exit := fun h => hx (by subst h; exact List.mem_cons_self ..)
        have hg' : ∀ o ∈ os, o.1 ≠ .ErrorOccurred := fun o ho => hg o (List.mem_cons_of_mem _ ho)
        have hx' : .Exit ∉ os.map (·.1) := fun h => hx (List.mem_cons_of_mem _ h)
        obtain ⟨E, mask', us, h5, h6⟩ := passes_to_last (fun o ho h0 => absurd h0 (hg' o ho)) hx' h2
        have hE : E.src = offs e f 0 N := by rw [← hB, step_err_src h6]
        have hC : ∀ k C, Steps e f mask k A C → (∃ m, Fin e f mask m C r1 B1) → BGoes e f mask N z C ts ∧ C.src < offs e f 0 N := by
          rintro k C hk ⟨m, A1, s1, s2⟩
          have := item_before (steps_inv s1 (steps_inv hk (hgo mask).inv)) s2 hr1 hx1 h5 h6 he
          have h7 : C.src < offs e f 0 N := by rw [← hE]; exact Nat.lt_of_le_of_lt (steps_mono s1) this
          exact ⟨(hgo mask).stepsTo hk h7, h7⟩
        rcases (hgo mask).call hid hts h1 c hC with ⟨k1, -⟩ | ⟨-, -, x0, ts', rfl, k3, k4⟩
        · exact absurd k1 hr1
        · obtain ⟨C, s1, s2⟩ := h1
          have hs := ((steps_same s1).trans (step_same s2)).trans (Same.clr c)
          cases i with
          | zero => cases ho; exact ⟨_, rfl, rfl, fun mask' c' hc hb => by cases hc; exact k4 hb⟩
          | succ i =>
            have := ih h2 hg' hx' ((step_idle s2).clr c) k3 (fun x hx => hts x (List.mem_cons_of_mem _ hx)) i o ho
            rw [hs.user, hs.1] at this
            exact this

end TW.AcceptItems
