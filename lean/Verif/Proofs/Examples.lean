import Verif.Model.Examples
import Verif.Proofs.ScanIterator
import Verif.Proofs.Chunks
import Verif.Proofs.Pointer

/-!
# The example programs with the scanner
-/

namespace TW

open Spec Mach

/-- The line of an item. -/
def lineOf (type : ElementType) (text : List Byte) : List Byte := elementTypeName type ++ [32] ++ text ++ [10]

/-- What the loop writes for items up to the end or to an error. -/
def written : List (ElementType × List Byte) → List Byte
  | [] => []
  | (.Exit, _) :: _ => []
  | (.ErrorOccurred, _) :: _ => []
  | (t, x) :: l => lineOf t x ++ written l

/-- How the loop ends. -/
def endOf : List (ElementType × List Byte) → Option Ended
  | [] => none
  | (.Exit, _) :: _ => some (.returned true)
  | (.ErrorOccurred, x) :: _ => some (.thrown (ascii "xml error: " ++ x.takeWhile (· ≠ 0)))
  | _ :: l => endOf l

namespace Scanner

variable {ρ : Type} [Reader ρ]

theorem showItems_exit (n k : Nat) (s : Scanner ρ) : showItems n (k + 1) (cur .Exit s) s = (([], .returned true), s) := by
  unfold showItems
  rw [iterEq_end]
  rfl

theorem showItems_error (n k : Nat) (s : Scanner ρ) :
    showItems n (k + 1) (cur .ErrorOccurred s) s = (([], .thrown (ascii "xml error: " ++ s.out.takeWhile (· ≠ 0))), s) := by
  unfold showItems
  rw [iterEq_end, if_neg (by decide)]
  have : readStr s (cur .ErrorOccurred s).element.error = some (s.out.takeWhile (· ≠ 0)) := by
    unfold readStr cur Element.error element
    by_cases h : s.out.length = 0
    · simp [List.length_eq_zero_iff.1 h]
    · simp [h]
  simp only [this]

theorem iterPre_cur (n : Nat) (r : ElementType) (s s' : Scanner ρ) : iterPre n (cur r s) s' = iterBegin n true s' := by
  unfold iterPre iterSkip iterBegin
  rw [if_pos (show (cur r s).input = true from rfl), if_pos rfl]
  rfl

theorem showItems_item (n k : Nat) {r : ElementType} (h1 : r ≠ .Exit) (h2 : r ≠ .ErrorOccurred) (s : Scanner ρ) :
    showItems n (k + 1) (cur r s) s =
      ((lineOf r s.out ++ (showAll n k s).1.1, (showAll n k s).1.2), (showAll n k s).2) := by
  unfold showItems
  rw [iterEq_end, if_neg (by simpa using h1)]
  have : readStr s (cur r s).element.error = none := by
    unfold readStr cur Element.error element
    simp [h2]
  simp only [this, iterSees_cur, iterPre_cur]
  unfold showAll
  rcases iterBegin n true s with ⟨it | er, s'⟩
  · rfl
  · simp [lineOf]

theorem showAll_ok {n : Nat} (k : Nat) {s s' : Scanner ρ} {r : ElementType} (h : nextItem n 0xFFFF s = (.ok r, s')) :
    showAll n k s = showItems n k (cur r s') s' := by
  unfold showAll
  rw [iterBegin_ok h]

theorem showAll_stop {n : Nat} (k : Nat) {s s' : Scanner ρ} {er : Stop} (h : nextItem n 0xFFFF s = (.stop er, s')) :
    showAll n k s = (([], .stopped er), s') := by
  unfold showAll iterBegin
  rw [if_pos rfl, M.bind_run, h]

/-- The loop writes the items that the calls of `nextItem` return. -/
theorem showAll_of_session {n : Nat} : ∀ (m k : Nat) {s s1 : Scanner ρ} {obs : List Obs} {en : Ended},
    session n false (asks m) s = (.ok obs, s1) → endOf (obs.map seen) = some en → obs.length ≤ k →
    (showAll n k s).1 = (written (obs.map seen), en)
  | 0, _, _, _, _, _, h, he, _ => by
    obtain ⟨rfl, -⟩ := M.pure_eq h
    cases he
  | m + 1, k, s, s1, obs, en, h, he, hk => by
    obtain ⟨r, s', obs', h1, h2, rfl⟩ := session_asks h
    cases k with
    | zero => simp at hk
    | succ k =>
      rw [showAll_ok _ h1]
      have ho : seen (observe false r s') = (r, s'.out) := rfl
      rw [List.map_cons, ho] at he ⊢
      by_cases hx : r = .Exit
      · subst hx
        rw [showItems_exit]
        simp only [endOf, Option.some.injEq] at he
        subst he
        rfl
      · by_cases hx' : r = .ErrorOccurred
        · subst hx'
          rw [showItems_error]
          simp only [endOf, Option.some.injEq] at he
          subst he
          rfl
        · have he' : endOf (obs'.map seen) = some en := by
            rw [← he]; cases r <;> first | rfl | exact absurd rfl hx | exact absurd rfl hx'
          have hw : written ((r, s'.out) :: obs'.map seen) = lineOf r s'.out ++ written (obs'.map seen) := by
            cases r <;> first | rfl | exact absurd rfl hx | exact absurd rfl hx'
          have ih := showAll_of_session m k h2 he' (by simpa using hk)
          rw [showItems_item _ _ hx hx', hw, ih]

end Scanner

/-! ## Chunks -/

namespace Mach

variable {e : Enc} {f : Nat → Byte} {mask L : Nat}

/-- From here the characters lead to the end of the text. -/
def Leads (e : Enc) (f : Nat → Byte) (L : Nat) (A : Cfg) : Prop :=
  (∃ n, offs e f A.src n = L) ∨ A.state = .EXIT ∨ Lost L A

theorem offs_one (k : Nat) : offs e f k 1 = k + Spec.ulen e f k := rfl

theorem leads_next {k n : Nat} (h : offs e f k n = L) (hk : k < L) : k + Spec.ulen e f k ≤ L ∧ ∃ n, offs e f (k + Spec.ulen e f k) n = L := by
  cases n with
  | zero => have : k = L := h
            omega
  | succ n =>
    rw [Nat.add_comm, offs_add, offs_one] at h
    have := offs_le (e := e) (f := f) (k + Spec.ulen e f k) n
    exact ⟨by omega, n, h⟩

theorem step_src {A B : Cfg} {r : Option ElementType} (h : step e f mask A = (r, B)) :
    B.src = A.src ∨ B.src = A.src + Spec.ulen e f A.src := by
  rcases step_shape h with ⟨-, h | h⟩ | ⟨-, h⟩ | ⟨-, h⟩
  · exact .inl h
  · exact .inr h.1
  · exact .inr h
  · exact .inl h

theorem Leads.step {A B : Cfg} {r : Option ElementType} (hf : Ends f L) (hi : Inv mask A)
    (ht : Leads e f L A) (h : step e f mask A = (r, B)) : Leads e f L B := by
  rcases ht with ⟨n, h1⟩ | h1 | h1
  · have hle := offs_le (e := e) (f := f) A.src n
    by_cases hlt : A.src < L
    · rcases step_src h with hs | hs
      · exact .inl ⟨n, by rw [hs]; exact h1⟩
      · exact .inl (by rw [hs]; exact (leads_next h1 hlt).2)
    · rcases step_stays hf hi (by omega) h with hs | ⟨-, hs⟩ | hs
      · exact .inl ⟨n, by rw [hs]; exact h1⟩
      · exact .inr (.inl hs)
      · exact .inr (.inr hs)
  · exact .inr (.inl (step_exit h1 h).1)
  · obtain ⟨B', h3, h4⟩ := h1.step (e := e) (mask := mask) hf
    rw [h] at h3
    cases h3
    exact .inr (.inr h4)

theorem Leads.steps {A B : Cfg} {m : Nat} (hf : Ends f L) (h : Steps e f mask m A B) :
    Inv mask A → Leads e f L A → Leads e f L B := by
  induction h with
  | refl => exact fun _ h => h
  | cons h1 _ ih => exact fun hi ht => ih (step_inv hi h1) (ht.step hf hi h1)

theorem steps_offs {A B : Cfg} {m : Nat} (h : Steps e f mask m A B) : ∃ i, offs e f A.src i = B.src := by
  induction h with
  | refl => exact ⟨0, rfl⟩
  | cons h1 _ ih =>
    obtain ⟨i, hi⟩ := ih
    rcases step_src h1 with hs | hs
    · exact ⟨i, by rw [← hs]; exact hi⟩
    · exact ⟨1 + i, by rw [offs_add, offs_one, ← hs]; exact hi⟩

/-- Runs with at most `K` steps for each item. -/
inductive Quick (e : Enc) (f : Nat → Byte) (K : Nat) : Cfg → List (ElementType × Cfg) → Prop
  | nil (A : Cfg) : Quick e f K A []
  | cons {A B : Cfg} {m : Nat} {r : ElementType} {os : List (ElementType × Cfg)} :
      Fin e f 0xFFFF m A r B → m ≤ K → Quick e f K B os → Quick e f K A ((r, B) :: os)

theorem Quick.mono {K K' : Nat} {A : Cfg} {os : List (ElementType × Cfg)} (h : Quick e f K A os) (hk : K ≤ K') : Quick e f K' A os := by
  induction h with
  | nil A => exact .nil A
  | cons h1 h2 _ ih => exact .cons h1 (by omega) ih

theorem quick_of_runs : ∀ {m : Nat} {A : Cfg} {os : List (ElementType × Cfg)},
    Runs e f (Scanner.asks m) A os → ∃ K, Quick e f K A os := by
  intro m
  induction m with
  | zero => intro A os h; cases h; exact ⟨0, .nil _⟩
  | succ m ih =>
    intro A os h
    change Runs e f ((0xFFFF, false) :: Scanner.asks m) A os at h
    cases h with
    | cons h1 h2 =>
      obtain ⟨K, h3⟩ := ih h2
      exact ⟨_, .cons h1 (Nat.le_max_left _ K) (h3.mono (Nat.le_max_right ..))⟩

/-- What a program sees of the items. -/
def texts (os : List (ElementType × Cfg)) : List (ElementType × List Byte) := os.map fun o => (o.1, o.2.out)

end Mach

namespace Scanner

/-- `outputChunks` with `k'` rounds left for the current chunk. -/
def goOn (n k' k : Nat) (cs : List (List Byte)) (s : Scanner (TextScanner SrcIt)) : (List Byte × Ended) × Scanner (TextScanner SrcIt) :=
  match showAll n k' s with
  | ((out, .stopped .eom), s) =>
    let ((out', ended), s) := outputChunks n k cs s
    ((out ++ out', ended), s)
  | r => r

variable {e : Enc}

theorem showItems_true {ρ : Type} [Reader ρ] (n : Nat) : ∀ (k : Nat) (it : Iterator) (s : Scanner ρ), (showItems n k it s).1.2 ≠ .returned false := by
  intro k
  induction k with
  | zero => intro it s; simp [showItems]
  | succ k ih =>
    intro it s
    unfold showItems
    repeat' split
    all_goals first
      | (intro h; cases h; done)
      | skip
    rename_i h
    exact fun h' => ih _ _ (by rw [h]; exact h')

theorem showAll_true {ρ : Type} [Reader ρ] (n k : Nat) (s : Scanner ρ) : (showAll n k s).1.2 ≠ .returned false := by
  unfold showAll
  split
  · intro h; cases h
  · exact showItems_true _ _ _ _

theorem outputChunks_cons (n k : Nat) (c : List Byte) (cs : List (List Byte)) (s : Scanner (TextScanner SrcIt)) :
    outputChunks n k (c :: cs) s = goOn n k k cs (feed true c true s) := by
  unfold goOn
  rw [outputChunks]
  unfold outputChunk
  have h := showAll_true n k (feed true c true s)
  rcases hs : showAll n k (feed true c true s) with ⟨⟨out, en⟩, s'⟩
  rw [hs] at h
  cases en with
  | returned b =>
    cases b with
    | true => rfl
    | false => exact absurd rfl h
  | thrown w => rfl
  | stopped er => cases er <;> rfl

theorem goOn_item {n k' k : Nat} {cs : List (List Byte)} {s s' : Scanner (TextScanner SrcIt)} {r : ElementType}
    (h : nextItem n 0xFFFF s = (.ok r, s')) (h1 : r ≠ .Exit) (h2 : r ≠ .ErrorOccurred) :
    (goOn n (k' + 1) k cs s).1 = (lineOf r s'.out ++ (goOn n k' k cs s').1.1, (goOn n k' k cs s').1.2) := by
  unfold goOn
  rw [showAll_ok _ h, showItems_item _ _ h1 h2]
  rcases showAll n k' s' with ⟨⟨out, en⟩, s''⟩
  cases en with
  | stopped er => cases er <;> simp
  | _ => rfl

variable {doc : List Byte} {hb : ∀ k, strm doc k < 256}

theorem goOn_next {L : Nat} (hf : Ends (strm doc) L) {n k K : Nat} {cs : List (List Byte)} {pre c : List Byte} {hd} (hK : K < n)
    (hstop : ∀ {s s1 : Scanner (TextScanner SrcIt)} {A : Cfg} {os : List (ElementType × Cfg)} {en : Ended},
      SRel (chunkSrc doc hb false pre c (cs ++ [[]]) hd) e 0xFFFF s A → Leads e (strm doc) L A → Quick e (strm doc) K A os →
      endOf (texts os) = some en → os.length ≤ k → nextItem n 0xFFFF s = (.stop .eom, s1) →
      (outputChunks n k cs s1).1 = (written (texts os), en)) :
    ∀ {A : Cfg} {os : List (ElementType × Cfg)}, Quick e (strm doc) K A os → ∀ {s : Scanner (TextScanner SrcIt)} {k' : Nat} {en : Ended},
    SRel (chunkSrc doc hb false pre c (cs ++ [[]]) hd) e 0xFFFF s A → Leads e (strm doc) L A →
    endOf (texts os) = some en → os.length ≤ k → os.length ≤ k' →
    (goOn n k' k cs s).1 = (written (texts os), en) := by
  intro A os hq
  induction hq with
  | nil => intro s k' en _ _ h; cases h
  | @cons A B m r os h1 h2 h3 ih =>
    intro s k' en hs hl he hk hk'
    cases k' with
    | zero => simp at hk'
    | succ k' =>
    generalize hr : nextItem n 0xFFFF s = x
    obtain ⟨x, s1⟩ := x
    cases x with
    | ok r' =>
      obtain ⟨m', B', g1, g2⟩ := nextItem_ok hs hr
      obtain ⟨-, rfl, rfl⟩ := h1.det g1
      have ho := g2.out
      have hlB : Leads e (strm doc) L B := by
        obtain ⟨C, c1, c2⟩ := h1
        exact (hl.steps hf c1 hs.inv).step hf (steps_inv c1 hs.inv) c2
      have ht : texts ((r, B) :: os) = (r, B.out) :: texts os := rfl
      rw [ht] at he ⊢
      by_cases hx : r = .Exit
      · subst hx
        simp only [endOf, Option.some.injEq] at he
        subst he
        unfold goOn
        rw [showAll_ok _ hr, showItems_exit]
        rfl
      · by_cases hx' : r = .ErrorOccurred
        · subst hx'
          simp only [endOf, Option.some.injEq] at he
          subst he
          unfold goOn
          rw [showAll_ok _ hr, showItems_error, ho]
          rfl
        · have he' : endOf (texts os) = some en := by
            rw [← he]; cases r <;> first | rfl | exact absurd rfl hx | exact absurd rfl hx'
          have hw : written ((r, B.out) :: texts os) = lineOf r B.out ++ written (texts os) := by
            cases r <;> first | rfl | exact absurd rfl hx | exact absurd rfl hx'
          rw [goOn_item hr hx hx', hw, ih (g2.rel _) hlB he' (by simp at hk; omega) (by simpa using hk'), ho]
    | stop er =>
      obtain ⟨m', A', g1, g2, g3, g4⟩ := nextItem_stop hs hr
      by_cases hfu : er = .fuel
      · have := g2 hfu
        have := (h1.split g1).1
        omega
      · have heom : er = .eom := (g3 hfu).1
        subst heom
        unfold goOn
        rw [showAll_stop _ hr]
        exact hstop hs hl (.cons h1 h2 h3) he hk hr

/-- Where the chunk is left. -/
theorem stop_leads {L : Nat} (hf : Ends (strm doc) L) {n K : Nat} {rest : List (List Byte)} {pre c : List Byte} {hd}
    {s s1 : Scanner (TextScanner SrcIt)} {A : Cfg} {os : List (ElementType × Cfg)} {en : Ended}
    (hs : SRel (chunkSrc doc hb false pre c rest hd) e 0xFFFF s A) (hl : Leads e (strm doc) L A) (hq : Quick e (strm doc) K A os)
    (he : endOf (texts os) = some en) (hr : nextItem n 0xFFFF s = (.stop .eom, s1)) :
    ∃ A' A'' p, Lack (chunkSrc doc hb false pre c rest hd) e A' ∧ (∃ i, offs e (strm doc) A'.src i = L) ∧
      A''.src = A'.src ∧ SRel (chunkSrc doc hb false pre c rest hd) e 0xFFFF s1 A'' ∧
      CRel (chunkSrc doc hb false pre c rest hd) s1.src.cb A''.src p ∧ ¬ (chunkSrc doc hb false pre c rest hd).av (A''.src + p) ∧
      Quick e (strm doc) K A'' os := by
  cases hq with
  | nil => cases he
  | @cons A B m r os h1 h2 h3 =>
    obtain ⟨m', A', g1, g2, g3, g4⟩ := nextItem_stop hs hr
    obtain ⟨A'', ⟨hs1, hs2⟩, h7, p, h8, h9⟩ := g4 rfl
    obtain ⟨h5, h6⟩ := h1.split g1
    have hlack := (g3 (by decide)).2
    refine ⟨A', A'', p, hlack, ?_, hs1, h7, by rw [hs1]; exact h8, by rw [hs1]; exact h9, .cons (Fin.same hs2 h6) (by omega) h3⟩
    rcases hl.steps hf g1 hs.inv with h | h | h
    · exact h
    · exact absurd h hlack.1
    · exact absurd h6 (h.never hf)

theorem goOn_quick {L : Nat} (hwf : e = .utf8 → Continued doc) (hf : Ends (strm doc) L) (hm : doc.length = L + unitSize e)
    {n k : Nat} (cs : List (List Byte)) : ∀ {pre c : List Byte} {hd} {s : Scanner (TextScanner SrcIt)} {A : Cfg} {K k' : Nat}
    {os : List (ElementType × Cfg)} {en : Ended},
    SRel (chunkSrc doc hb false pre c (cs ++ [[]]) hd) e 0xFFFF s A → Leads e (strm doc) L A → Quick e (strm doc) K A os →
    endOf (texts os) = some en → K + 7 * cs.length < n → os.length ≤ k → os.length ≤ k' →
    (goOn n k' k cs s).1 = (written (texts os), en) := by
  induction cs with
  | nil =>
    intro pre c hd s A K k' os en hs hl hq he hn hk hk'
    refine goOn_next hf (by omega) ?_ hq hs hl he hk hk'
    intro s s1 A os en hs hl hq he hk hr
    exfalso
    obtain ⟨A', A'', p, ⟨hx, q, hq', hav⟩, ⟨i, hi⟩, -⟩ := stop_leads hf hs hl hq he hr
    have hlen : pre.length + c.length = doc.length := by rw [hd]; simp
    have : A'.src + q < pre.length + c.length := by
      have hle := offs_le (e := e) (f := strm doc) A'.src i
      by_cases hlt : A'.src < L
      · have := (leads_next hi hlt).1
        omega
      · have hs : A'.src = L := by omega
        rw [hs, hf.ulen] at hq'
        omega
    rcases hav with hav | hav
    · exact hav (.inl this)
    · exact hav trivial
  | cons c' cs ih =>
    intro pre c hd s A K k' os en hs hl hq he hn hk hk'
    refine goOn_next hf (by omega) ?_ hq hs hl he hk hk'
    intro s s1 A os en hs hl hq he hk hr
    obtain ⟨A', A'', p, -, ⟨i, hi⟩, h1, h2, h3, h4, h5⟩ := stop_leads hf hs hl hq he hr
    have hd' : doc = (pre ++ c) ++ (c' ++ (cs ++ [[]]).flatten) := by rw [hd]; simp
    obtain ⟨j, B, h6, h7, h8⟩ := feed_rel (fresh := true) (cs := cs ++ [[]]) hd hwf hd' h2 h3 h4
    rw [outputChunks_cons]
    have hne : (!(cs ++ [[]]).isEmpty) = true := by cases cs <;> rfl
    rw [hne] at h8
    have hlB : Leads e (strm doc) L B := by
      obtain ⟨i', hi'⟩ := steps_offs h7
      exact .inl ⟨i' + i, by rw [offs_add, hi', h1]; exact hi⟩
    have hqB : Quick e (strm doc) (K + 7) B os := by
      cases h5 with
      | nil => cases he
      | cons g1 g2 g3 => exact .cons (g1.later h7) (by omega) (g3.mono (by omega))
    exact ih h8 hlB hqB he (by simp only [List.length_cons] at hn; omega) hk hk

end Scanner

end TW
