import Verif.Proofs.Session
import Verif.Proofs.Sources
import Verif.Spec.Scan

/-!
# Input in chunks
-/

namespace TW

open Spec Mach

variable {e : Enc} {f : Nat → Byte} {mask : Nat}

/-! ## Continuation bytes in states that skip characters -/

theorem undef_skips : ∀ op ∈ ([.ReturnWord, .ReturnContent, .ReturnIdentifier, .ReturnSQString,
    .ReturnDQString] : List STMAction), ∀ isTok, tokenDefs op = some isTok → isTok .Undef = true := by
  intro op h isTok h1
  simp only [List.mem_cons, List.not_mem_nil, or_false] at h
  rcases h with rfl | rfl | rfl | rfl | rfl <;> simp only [tokenDefs, Option.some.injEq] at h1 <;>
    subst h1 <;> decide

theorem undef_loops : ∀ s ∈ [STMState.PITAG, .ENTITYLC, .COMSEEKE, .CDATA1],
    (stm s).action = none ∧ (stm s).next .Undef = some s := by decide +kernel

theorem cont_step {A : Cfg} (hs : (A.state ∈ [STMState.PITAG, .ENTITYLC, .COMSEEKE, .CDATA1] ∧
    A.tok.id = .Start) ∨ ((∃ isTok arg, Skips mask A.state isTok arg) ∧ A.tok.id ≠ .ParsingDone))
    (h1 : 0x80 ≤ f A.src) (h2 : f A.src < 0xC0) :
    step .utf8 f mask A = (none, { A with src := A.src + 1 }) := by
  have hc : cls .utf8 f A = .Undef := by
    have : ¬ f A.src < 128 := by omega
    simp only [cls, uasc, if_neg this]
    decide
  have hl : ulen .utf8 f A.src = 1 := by
    simp only [ulen, utf8Len]
    rw [if_pos (by omega)]
  rcases hs with ⟨h3, h4⟩ | ⟨⟨isTok, arg, op, h3, h4, h5⟩, h6⟩
  · obtain ⟨h5, h6⟩ := undef_loops A.state h3
    unfold step
    simp only [h5]
    unfold Mach.trans
    simp only [hc, h6, adv, idTo, tokTo, hl]
    have : ({ A.tok with id := .Start } : TokState) = A.tok := by
      rw [← h4]
    rw [this]
    rfl
  · have hop : op ∈ ([.ReturnWord, .ReturnContent, .ReturnIdentifier, .ReturnSQString,
        .ReturnDQString] : List STMAction) := by
      cases op <;> simp [tokenDefs] at h4 ⊢
    have hu := undef_skips op hop isTok h4
    unfold step
    simp only [h3, h4, if_neg h6, h5, hc, hu, adv, hl]
    rfl

theorem cont_steps (j : Nat) : ∀ {A : Cfg} (x : Nat), (A.state ∈ [STMState.PITAG, .ENTITYLC, .COMSEEKE, .CDATA1] ∧
    A.tok.id = .Start) ∨ ((∃ isTok arg, Skips mask A.state isTok arg) ∧ A.tok.id ≠ .ParsingDone) →
    A.src = x + j → (∀ i, x ≤ i → i < x + j → 0x80 ≤ f i ∧ f i < 0xC0) →
    Steps .utf8 f mask j { A with src := x } A := by
  induction j with
  | zero =>
    intro A x _ h _
    have : ({ A with src := x } : Cfg) = A := by
      rw [show x = A.src from h.symm]
    rw [this]
    exact .refl A
  | succ j ih =>
    intro A x hs h hc
    refine .cons (cont_step (A := { A with src := x }) hs (hc x (by omega) (by omega)).1
      (hc x (by omega) (by omega)).2) ?_
    exact ih (x + 1) hs (by omega) fun i h1 h2 => hc i (by omega) (by omega)

/-! ## The source of a chunk -/

/-- A chunk of a document with the chunks that follow it. -/
def chunkSrc (doc : List Byte) (hb : ∀ k, strm doc k < 256) (pos : Bool) (pre chunk : List Byte)
    (rest : List (List Byte)) (hd : doc = pre ++ (chunk ++ rest.flatten)) : Source SrcIt (strm doc) :=
  srcSource (strm doc) pre.length chunk.length (!rest.isEmpty) pos hb (by
    intro h k hk
    have : rest = [] := by
      cases rest with
      | nil => rfl
      | cons => simp at h
    subst this
    subst hd
    simp only [strm, List.getD_eq_getElem?_getD]
    rw [List.getElem?_eq_none (by simp; omega)]
    rfl)

theorem chunk_slice (pre chunk rest : List Byte) :
    slice (strm (pre ++ (chunk ++ rest))) pre.length chunk.length = chunk := by
  apply List.ext_getElem?
  intro i
  rw [slice, List.getElem?_map]
  by_cases hi : i < chunk.length
  · rw [List.getElem?_range hi]
    simp only [Option.map_some, strm, List.getD_eq_getElem?_getD]
    rw [List.getElem?_append_right (by omega), List.getElem?_append_left (by omega),
      show pre.length + i - pre.length = i by omega, List.getElem?_eq_getElem hi]
    rfl
  · rw [List.getElem?_eq_none (by simp; omega), List.getElem?_eq_none (by omega)]
    rfl

variable {doc : List Byte} {hb : ∀ k, strm doc k < 256}

/-- After the end of a chunk the scanner fed with the next chunk is at a configuration
from which the machine gets to where it was interrupted. -/
theorem feed_rel {fresh : Bool} {pre chunk c : List Byte} {cs : List (List Byte)}
    (hd : doc = pre ++ (chunk ++ (c :: cs).flatten)) (hwf : e = .utf8 → Continued doc)
    (hd' : doc = (pre ++ chunk) ++ (c ++ cs.flatten))
    {s : Scanner (TextScanner SrcIt)} {A : Cfg} {p : Nat}
    (h : SRel (chunkSrc doc hb (!fresh) pre chunk (c :: cs) hd) e mask s A)
    (hc : CRel (chunkSrc doc hb (!fresh) pre chunk (c :: cs) hd) s.src.cb A.src p)
    (hp : ¬ (chunkSrc doc hb (!fresh) pre chunk (c :: cs) hd).av (A.src + p)) :
    ∃ j B, j ≤ 7 ∧ Steps e (strm doc) mask j B A ∧
      SRel (chunkSrc doc hb (!fresh) (pre ++ chunk) c cs hd') e mask
        (Scanner.feed fresh c (!cs.isEmpty) s) B := by
  obtain ⟨⟨ld, t, tp, rfl, ht, htp⟩, hpast, hinv⟩ := h
  have hge : pre.length + chunk.length ≤ A.src + p := by
    simp only [chunkSrc, srcSource] at hp
    omega
  have hav : ∀ i, (chunkSrc doc hb (!fresh) pre chunk (c :: cs) hd).av i →
      i < pre.length + chunk.length := by
    intro i h
    simpa [chunkSrc, srcSource] using h
  have hcs := ht.cs
  obtain ⟨p', hp', hc', hld, hval⟩ := ht.cb
  have hpp : p' = p := by rw [← hc'.pos]; exact hc.pos
  subst hpp
  -- the iterator after feeding
  have hR : ∀ k q, k + q = pre.length + chunk.length →
      (chunkSrc doc hb (!fresh) (pre ++ chunk) c cs hd').R
        (Scanner.feed fresh c (!cs.isEmpty) (lift A t tp)).src.cb.itr (k + q) := by
    intro k q hk
    have hsl : slice (strm doc) (pre ++ chunk).length c.length = c := by
      rw [hd']; exact chunk_slice (pre ++ chunk) c cs.flatten
    obtain ⟨g1, g2, g3, g4, g5⟩ := hc.itr
    cases fresh with
    | true =>
      refine ⟨?_, rfl, ?_, ?_, ?_⟩
      · rw [hsl]; rfl
      · simp; omega
      · show 0 = _; simp; omega
      · intro h; cases h
    | false =>
      refine ⟨?_, rfl, ?_, ?_, ?_⟩
      · rw [hsl]; rfl
      · simp; omega
      · show 0 = _; simp; omega
      · intro _
        have := g5 rfl
        show (lift A t tp).src.cb.itr.abspos + c.length = _
        rw [this]
        simp
  have hRS : (chunkSrc doc hb (!fresh) (pre ++ chunk) c cs hd').RS
      (Scanner.feed fresh c (!cs.isEmpty) (lift A t tp)).src.start := trivial
  have hlift : ∀ B : Cfg, ({ A with src := B.src } : Cfg) = B →
      Scanner.feed fresh c (!cs.isEmpty) (lift A t tp)
      = lift B (Scanner.feed fresh c (!cs.isEmpty) (lift A t tp)).src tp := by
    intro B hB
    rw [← hB]
    cases fresh <;> rfl
  have hbuf : (Scanner.feed fresh c (!cs.isEmpty) (lift A t tp)).src.cb.buf = t.cb.buf ∧
      (Scanner.feed fresh c (!cs.isEmpty) (lift A t tp)).src.cb.bufpos = t.cb.bufpos ∧
      (Scanner.feed fresh c (!cs.isEmpty) (lift A t tp)).src.charset = t.charset ∧
      (Scanner.feed fresh c (!cs.isEmpty) (lift A t tp)).src.val = t.val := by
    cases fresh <;> exact ⟨rfl, rfl, rfl, rfl⟩
  obtain ⟨hb1, hb2, hb3, hb4⟩ := hbuf
  have htp' : ∀ B : Cfg, B.tokenpos = A.tokenpos →
      TpOk (chunkSrc doc hb (!fresh) (pre ++ chunk) c cs hd') e B tp := by
    intro B hB
    refine ⟨?_, ?_⟩
    · intro h1 h2
      exact absurd h2.1 h1
    · intro h
      rw [hB]
      exact htp.2 h
  by_cases heq : A.src + p' = pre.length + chunk.length
  · refine ⟨0, A, by omega, .refl A, ⟨ld, _, tp, hlift A rfl, ?_, htp' A rfl⟩, .inl (.inl ?_), hinv⟩
    · refine ⟨by rw [hb3]; exact hcs, hRS, ⟨p', hp', ⟨?_, ?_, hR _ _ heq, ?_, ?_⟩, hld, ?_⟩, ?_⟩
      · rw [hb1]; exact hc'.len
      · rw [hb2]; exact hc'.pos
      · rw [hb1]; exact hc'.data
      · intro i hi
        left
        simp only [List.length_append]
        show A.src + i < _
        omega
      · rw [hb4]; exact hval
      · rw [hb4]; exact ht.val
    · intro i hi
      left
      simp only [List.length_append]
      omega
  · have hp0 : p' = 0 := by
      apply Decidable.byContradiction
      intro h0
      have := hav _ (hc'.avail (p' - 1) (by omega))
      simp only at this
      omega
    subst hp0
    simp only [Nat.add_zero] at hge heq
    have hover : e = .utf8 ∧ (∃ k0, k0 < pre.length + chunk.length ∧ 128 ≤ strm doc k0 ∧
        A.src = k0 + ulen e (strm doc) k0) ∧ ((A.state ∈ [STMState.PITAG, .ENTITYLC, .COMSEEKE, .CDATA1] ∧
    A.tok.id = .Start) ∨ ((∃ isTok arg, Skips mask A.state isTok arg) ∧ A.tok.id ≠ .ParsingDone)) := by
      rcases hpast with (hall | ⟨⟨he, k0, h1, h2, h3⟩, h4⟩) | ⟨⟨he, k0, h1, h2, h3⟩, h4⟩
      · exfalso
        have := hav _ (hall (A.src - 1) (by omega))
        omega
      · exact ⟨he, ⟨k0, hav _ (h1 k0 (Nat.le_refl _)), h2, h3⟩, .inl h4⟩
      · exact ⟨he, ⟨k0, hav _ (h1 k0 (Nat.le_refl _)), h2, h3⟩, .inr h4⟩
    obtain ⟨rfl, ⟨k0, hk0, hk1, hk2⟩, hst⟩ := hover
    have hlen : ulen .utf8 (strm doc) k0 = utf8Len (strm doc k0) := rfl
    have hle := utf8Len_le (strm doc k0)
    have hlead : 0xC0 ≤ strm doc k0 := by
      apply Decidable.byContradiction
      intro hlt
      have : utf8Len (strm doc k0) = 1 := by
        unfold utf8Len
        rw [if_pos (by omega)]
      omega
    have hsteps := cont_steps (mask := mask) (f := strm doc) (A.src - (pre.length + chunk.length))
      (A := A) (pre.length + chunk.length) hst (by omega) (by
        intro i h1 h2
        have := hwf rfl k0 (i - k0) hlead (by omega) (by omega)
        rw [show k0 + (i - k0) = i by omega] at this
        exact this)
    refine ⟨_, _, ?_, hsteps, ⟨.no, _, tp, hlift { A with src := pre.length + chunk.length } rfl,
      ?_, htp' { A with src := pre.length + chunk.length } rfl⟩, .inl (.inl ?_), ?_⟩
    · omega
    · have hv0 : t.val = 0 := by
        apply Decidable.byContradiction
        intro h
        have h1 := hval h
        have h2 := ulen_pos .utf8 (strm doc) A.src
        simp only at h1
        omega
      refine ⟨by rw [hb3]; exact hcs, hRS, ⟨0, Nat.zero_le _, ⟨?_, ?_, hR _ _ rfl, ?_, ?_⟩, trivial, ?_⟩, ?_⟩
      · rw [hb1]; exact hc'.len
      · rw [hb2]; exact hc'.pos
      · intro i hi; omega
      · intro i hi; omega
      · rw [hb4]; intro h; exact absurd hv0 h
      · rw [hb4]; exact .inl hv0
    · intro i hi
      left
      simp only [List.length_append]
      simp only at hi
      omega
    · exact ⟨hinv.buf, hinv.pos, hinv.base, hinv.pos0, hinv.key, hinv.tok, hinv.val, hinv.cr⟩

/-! ## Runs on chunks -/

theorem chunkSrc_total {pos : Bool} {pre chunk : List Byte} (hd : doc = pre ++ (chunk ++ ([] : List (List Byte)).flatten)) :
    (chunkSrc doc hb pos pre chunk [] hd).Total := fun _ => ⟨.inr rfl, trivial⟩

/-- The scanner is between two calls at `A`, with the chunks `rest` still to be fed. -/
def FedRel (doc : List Byte) (hb : ∀ k, strm doc k < 256) (e : Enc) (pos : Bool)
    (rest : List (List Byte)) (s : Scanner (TextScanner SrcIt)) (A : Cfg) : Prop :=
  ∃ pre chunk hd, SRel0 (chunkSrc doc hb pos pre chunk rest hd) e s A

theorem nextFed_fin {fresh : Bool} (hwf : e = .utf8 → Continued doc) {n : Nat} {r : ElementType} {B : Cfg}
    (rest : List (List Byte)) : ∀ {pre chunk : List Byte} {hd} {s : Scanner (TextScanner SrcIt)} {A : Cfg} {m : Nat},
    SRel (chunkSrc doc hb (!fresh) pre chunk rest hd) e mask s A →
    Fin e (strm doc) mask m A r B → m + 7 * rest.length < n →
    ∃ rest' s', Scanner.nextFed n fresh mask rest s = (.ok (r, rest'), s') ∧
      FedRel doc hb e (!fresh) rest' s' B := by
  induction rest with
  | nil =>
    intro pre chunk hd s A m h hf hn
    obtain ⟨s', h1, h2⟩ := nextItem_fin (n := n) (chunkSrc_total hd) h hf (by simpa using hn)
    refine ⟨[], s', ?_, pre, chunk, hd, h2⟩
    simp only [Scanner.nextFed, h1]
  | cons c cs ih =>
    intro pre chunk hd s A m h hf hn
    simp only [List.length_cons] at hn
    generalize hr : Scanner.nextItem n mask s = x
    obtain ⟨x, s1⟩ := x
    cases x with
    | ok r' =>
      obtain ⟨m', B', h1, h2⟩ := nextItem_ok h hr
      obtain ⟨-, rfl, rfl⟩ := hf.det h1
      refine ⟨c :: cs, s1, ?_, pre, chunk, hd, h2⟩
      simp only [Scanner.nextFed, hr]
    | stop er =>
      obtain ⟨m', A', h1, h2, h3, h4⟩ := nextItem_stop h hr
      obtain ⟨h5, h6⟩ := hf.split h1
      by_cases hfu : er = .fuel
      · have := h2 hfu
        omega
      · have heom : er = .eom := (h3 hfu).1
        subst heom
        obtain ⟨A'', ⟨hs1, hs2⟩, h7, p, h8, h9⟩ := h4 rfl
        rw [← hs1] at h8 h9
        obtain ⟨j, Al, hj, h10, h11⟩ := feed_rel hd hwf (by rw [hd]; simp) h7 h8 h9
        have h12 := (Fin.same hs2 h6).later h10
        obtain ⟨rest', s', h13, h14⟩ := ih h11 h12 (by omega)
        refine ⟨rest', s', ?_, h14⟩
        simp only [Scanner.nextFed, hr]
        exact h13

theorem nextFed_res {fresh : Bool} (hwf : e = .utf8 → Continued doc) {n : Nat}
    (rest : List (List Byte)) : ∀ {pre chunk : List Byte} {hd} {s s' : Scanner (TextScanner SrcIt)} {A : Cfg} {x},
    SRel (chunkSrc doc hb (!fresh) pre chunk rest hd) e mask s A →
    Scanner.nextFed n fresh mask rest s = (x, s') →
    x = .stop .fuel ∨ ∃ r rest' m B, x = .ok (r, rest') ∧ Fin e (strm doc) mask m A r B ∧
      FedRel doc hb e (!fresh) rest' s' B := by
  induction rest with
  | nil =>
    intro pre chunk hd s s' A x h hx
    simp only [Scanner.nextFed] at hx
    generalize hr : Scanner.nextItem n mask s = y at hx
    obtain ⟨y, s1⟩ := y
    cases y with
    | ok r =>
      cases hx
      obtain ⟨m, B, h1, h2⟩ := nextItem_ok h hr
      exact .inr ⟨r, [], m, B, rfl, h1, pre, chunk, hd, h2⟩
    | stop er =>
      cases hx
      rw [nextItem_total (chunkSrc_total hd) h hr]
      exact .inl rfl
  | cons c cs ih =>
    intro pre chunk hd s s' A x h hx
    simp only [Scanner.nextFed] at hx
    generalize hr : Scanner.nextItem n mask s = y at hx
    obtain ⟨y, s1⟩ := y
    cases y with
    | ok r =>
      cases hx
      obtain ⟨m, B, h1, h2⟩ := nextItem_ok h hr
      exact .inr ⟨r, c :: cs, m, B, rfl, h1, pre, chunk, hd, h2⟩
    | stop er =>
      obtain ⟨m', A', h1, h2, h3, h4⟩ := nextItem_stop h hr
      by_cases hfu : er = .fuel
      · subst hfu
        cases hx
        exact .inl rfl
      · have heom : er = .eom := (h3 hfu).1
        subst heom
        simp only at hx
        obtain ⟨A'', ⟨hs1, hs2⟩, h7, p, h8, h9⟩ := h4 rfl
        rw [← hs1] at h8 h9
        obtain ⟨j, Al, hj, h10, h11⟩ := feed_rel hd hwf (by rw [hd]; simp) h7 h8 h9
        rcases ih h11 hx with h12 | ⟨r, rest', m, B, h12, h13, h14⟩
        · exact .inl h12
        · obtain ⟨-, h15⟩ := h13.split h10
          exact .inr ⟨r, rest', _, B, h12, (Fin.same hs2.symm h15).later h1, h14⟩

theorem FedRel.observe {sp fresh : Bool} {rest : List (List Byte)} {s : Scanner (TextScanner SrcIt)}
    {A : Cfg} {r : ElementType} (h : FedRel doc hb e (!fresh) rest s A) (hsp : sp = true → fresh = false) :
    Scanner.observe sp r s = Mach.obs sp (r, A) := by
  obtain ⟨pre, chunk, hd, h⟩ := h
  exact h.observe fun hs => by
    show (!fresh) = true
    rw [hsp hs]; rfl

theorem FedRel.clr {pos : Bool} {rest : List (List Byte)} {s : Scanner (TextScanner SrcIt)}
    {A : Cfg} (h : FedRel doc hb e pos rest s A) (c : Bool) :
    ∃ s', Scanner.clearIf c s = (.ok (), s') ∧ FedRel doc hb e pos rest s' (Mach.clr c A) := by
  obtain ⟨pre, chunk, hd, h⟩ := h
  obtain ⟨s', h1, h2⟩ := h.clr c
  exact ⟨s', h1, pre, chunk, hd, h2⟩

theorem sessionFed_runs {sp fresh : Bool} (hwf : e = .utf8 → Continued doc)
    (hsp : sp = true → fresh = false) (K : Nat) {cs : List (Nat × Bool)} {A : Cfg}
    {os : List (ElementType × Cfg)} (hr : Runs e (strm doc) cs A os) :
    ∃ N, ∀ n, N ≤ n → ∀ rest s, rest.length ≤ K → FedRel doc hb e (!fresh) rest s A →
      ∃ s', Scanner.sessionFed n fresh sp cs rest s = (.ok (os.map (Mach.obs sp)), s') := by
  induction hr with
  | nil A => exact ⟨0, fun n _ _ s _ _ => ⟨s, rfl⟩⟩
  | @cons mask c cs A B m r os h1 _ ih =>
    obtain ⟨N, ih⟩ := ih
    refine ⟨max N (m + 7 * K + 1), fun n hn rest s hK h => ?_⟩
    obtain ⟨pre, chunk, hd, h⟩ := h
    obtain ⟨rest', s1, h2, h3⟩ := nextFed_fin (n := n) hwf rest (h.rel mask) h1 (by omega)
    obtain ⟨s2, h4, h5⟩ := h3.clr c
    have hK' : rest'.length ≤ K := by
      have : ∀ (rest : List (List Byte)) (s s1 : Scanner (TextScanner SrcIt)) r rest',
          Scanner.nextFed n fresh mask rest s = (.ok (r, rest'), s1) → rest'.length ≤ rest.length := by
        intro rest
        induction rest with
        | nil =>
          intro s s1 r rest' h
          simp only [Scanner.nextFed] at h
          split at h <;> cases h
          simp
        | cons c cs ih =>
          intro s s1 r rest' h
          simp only [Scanner.nextFed] at h
          split at h
          · cases h; simp
          · have := ih _ _ _ _ h
            simp only [List.length_cons]; omega
          · cases h
      have := this _ _ _ _ _ h2
      omega
    obtain ⟨s3, h6⟩ := ih n (by omega) rest' s2 hK' h5
    refine ⟨s3, ?_⟩
    unfold Scanner.sessionFed
    rw [M.bind_ok h2]
    simp only
    rw [M.bind_ok (M.get_run _), M.bind_ok h4, M.bind_ok h6, h3.observe hsp]
    rfl

theorem sessionFed_res {sp fresh : Bool} {n : Nat} (hwf : e = .utf8 → Continued doc)
    (hsp : sp = true → fresh = false) {cs : List (Nat × Bool)} :
    ∀ {A : Cfg} {rest : List (List Byte)} {s s' : Scanner (TextScanner SrcIt)} {x},
    FedRel doc hb e (!fresh) rest s A →
    Scanner.sessionFed n fresh sp cs rest s = (x, s') →
    x = .stop .fuel ∨ ∃ os, Runs e (strm doc) cs A os ∧ x = .ok (os.map (Mach.obs sp)) := by
  induction cs with
  | nil =>
    intro A rest s s' x h hs
    cases hs
    exact .inr ⟨[], .nil A, rfl⟩
  | cons mc cs ih =>
    intro A rest s s' x h hs
    obtain ⟨mask, c⟩ := mc
    unfold Scanner.sessionFed at hs
    generalize hr : Scanner.nextFed n fresh mask rest s = y at hs
    obtain ⟨y, s1⟩ := y
    obtain ⟨pre, chunk, hd, h⟩ := h
    rcases nextFed_res hwf rest (h.rel mask) hr with rfl | ⟨r, rest', m, B, rfl, h1, h2⟩
    · rw [M.bind_stop hr] at hs
      cases hs
      exact .inl rfl
    · obtain ⟨s2, h4, h5⟩ := h2.clr c
      rw [M.bind_ok hr] at hs
      simp only at hs
      rw [M.bind_ok (M.get_run _), M.bind_ok h4, M.bind_run] at hs
      generalize hx : Scanner.sessionFed n fresh sp cs rest' s2 = y at hs
      obtain ⟨y, s3⟩ := y
      rcases ih h5 hx with rfl | ⟨os, h6, rfl⟩
      · cases hs
        exact .inl rfl
      · cases hs
        exact .inr ⟨(r, B) :: os, .cons h1 h6, by rw [h2.observe hsp]; rfl⟩

section

variable (e output : Enc) (em : Option (List (Nat × UChar))) (addr : Nat)

theorem fedRel_new {doc c : List Byte} {cs : List (List Byte)} (pos : Bool)
    (hd : doc = c ++ cs.flatten) (hb : ∀ k, strm doc k < 256) :
    FedRel doc hb e pos cs (fedScanner e output em addr c cs) (Cfg.new output em addr) := by
  refine ⟨[], c, by simpa using hd, SRel0.new ?_ trivial output em addr⟩
  refine ⟨?_, rfl, Nat.zero_le _, rfl, ?_⟩
  · have := chunk_slice [] c cs.flatten
    rw [List.nil_append, ← hd] at this
    exact this.symm
  · intro _
    simp [SrcIt.mk']

/-- The whole document as a source. -/
def oneSrc (doc : List Byte) (hb : ∀ k, strm doc k < 256) : Source SrcIt (strm doc) :=
  chunkSrc doc hb true [] doc [] (by simp)

theorem oneSrc_total {doc : List Byte} {hb : ∀ k, strm doc k < 256} : (oneSrc doc hb).Total :=
  chunkSrc_total _

theorem oneSrc_wrap {doc : List Byte} {hb : ∀ k, strm doc k < 256} : (oneSrc doc hb).wrap := rfl

theorem oneScanner_rel (doc : List Byte) (hb : ∀ k, strm doc k < 256) :
    SRel0 (oneSrc doc hb) e (oneScanner e output em addr doc) (Cfg.new output em addr) := by
  refine SRel0.new ?_ trivial output em addr
  refine ⟨?_, rfl, Nat.zero_le _, rfl, ?_⟩
  · have := chunk_slice [] doc []
    simpa [SrcIt.mk'] using this.symm
  · intro _
    simp [SrcIt.mk']

variable {e output em addr}

theorem reached_rel {doc : List Byte} (hb : ∀ k, strm doc k < 256) {s : Scanner (TextScanner SrcIt)}
    (h : Scanner.Reached (oneScanner e output em addr doc) s) :
    ∃ A, SRel0 (oneSrc doc hb) e s A ∧ Reach e (strm doc) (Cfg.new output em addr) A := by
  obtain ⟨n, sp, calls, obs, h⟩ := h
  obtain ⟨os, -, -, A, h1, h2⟩ := session_ok (fun _ => oneSrc_wrap) (oneScanner_rel e output em addr doc hb) h
  exact ⟨A, h1, h2⟩

end

end TW
