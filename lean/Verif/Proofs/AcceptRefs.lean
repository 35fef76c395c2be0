import Verif.Spec.Unknown
import Verif.Proofs.AcceptItemsRun

/-!
# Unknown entities in the items of accepted documents
-/

namespace TW.AcceptItems

open Spec Scanner Mach Loose Accept

variable {e : Enc} {f : Nat → Byte} {mask : Nat}

/-! ## The first unknown entity of a text -/

theorem exists_first {t : List Byte} : ∀ (n : Nat) {pre ns post : List Byte}, pre.length ≤ n → t = pre ++ 38 :: ns ++ 59 :: post → UnknownName ns →
    ∃ pre post, FirstUnknown none t pre post
  | 0, pre, ns, post, hn, h1, h2 => ⟨pre, post, rfl, ⟨ns, h1, h2⟩, fun pre' _ _ _ _ => by omega⟩
  | n + 1, pre, ns, post, hn, h1, h2 => by
    by_cases h : ∃ pre' ns' post', t = pre' ++ 38 :: ns' ++ 59 :: post' ∧ UnknownName ns' ∧ pre'.length < pre.length
    · obtain ⟨pre', ns', post', h3, h4, h5⟩ := h
      exact exists_first n (by omega) h3 h4
    · refine ⟨pre, post, rfl, ⟨ns, h1, h2⟩, fun pre' ns' post' h3 h4 => ?_⟩
      refine Nat.le_of_not_lt fun h5 => h ⟨pre', ns', post', h3, h4, h5⟩

/-- The pieces before the first unknown entity. -/
theorem first_segs {user : Option UChar} {us : List Ch} {t pre post : List Byte} (hu : us.map Ch.asc = t) (h : FirstUnknown user t pre post) :
    ∃ (ss : List Seg) (cs vs : List Ch) (ns : List Byte), us = ss.flatMap Seg.text ++ (cs ++ vs) ∧ (ss.flatMap Seg.text).map Ch.asc = pre ∧
      SegsOk user 38 ss ∧ cs.map Ch.asc = 38 :: ns ∧ vs.map Ch.asc = 59 :: post ∧ UnknownName ns ∧ user = none := by
  obtain ⟨rfl, ⟨ns, h1, h2⟩, h3⟩ := h
  subst hu
  obtain ⟨xs, ys, rfl, a1, a2⟩ := map_asc_split (xs := pre ++ 38 :: ns) (ys := 59 :: post) h1
  obtain ⟨ws, cs, rfl, b1, b2⟩ := map_asc_split (xs := pre) (ys := 38 :: ns) a1
  rcases exists_segs none 38 rfl (by decide) ws.length ws (Nat.le_refl _) with ⟨ss, k1, k2⟩ | ⟨ss, vs, k1, k2, k3⟩
  · exact ⟨ss, cs, ys, ns, by rw [k1, List.append_assoc], by rw [k1, b1], k2, b2, a2, h2, rfl⟩
  · exfalso
    obtain ⟨-, ns', post', c1, c2, c3⟩ := k3
    have := h3 ((ss.flatMap Seg.text).map Ch.asc) ns' (post' ++ 38 :: ns ++ 59 :: post) (by
      rw [k1] at b1
      rw [List.map_append] at b1
      rw [h1, ← b1, c1]
      simp) ⟨c2, c3⟩
    rw [← b1, k1] at this
    rw [List.map_append, c1] at this
    simp at this
    omega

/-- A text without unknown entities is a sequence of pieces. -/
theorem known_segs {user : Option UChar} {us : List Ch} {next : Byte} (hn : nameChar next = false) (h59 : next ≠ 59)
    (h : ∀ pre post, ¬ FirstUnknown user (us.map Ch.asc) pre post) : ∃ ss : List Seg, ss.flatMap Seg.text = us ∧ SegsOk user next ss := by
  rcases exists_segs user next hn h59 us.length us (Nat.le_refl _) with h1 | ⟨ss, vs, k1, k2, rfl, ns, post, c1, c2, c3⟩
  · exact h1
  · exfalso
    obtain ⟨pre, post, h2⟩ := exists_first (t := us.map Ch.asc) _ (pre := (ss.flatMap Seg.text).map Ch.asc) (ns := ns) (post := post) (Nat.le_refl _)
      (by rw [k1, List.map_append, c1, List.append_assoc]) ⟨c2, c3⟩
    exact h _ _ h2

/-! ## Reading a token -/

/-- `C` is at the start of a token `t` that is asked for; `as` is behind it. -/
structure Starts (e : Enc) (f : Nat → Byte) (mask : Nat) (C : Cfg) (r : ElementType) (t as : List Byte) : Prop where
  inv : Mach.Inv mask C
  id : C.tok.id = .Start
  op : ∃ op kind isTok, (stm C.state).action = some (op, r) ∧ tokenDefs op = some isTok ∧ kindOf op = some kind ∧
    (∀ c ∈ chars e f C.src t.length, kind.ends c.asc = false) ∧ kind.ends (as.headD 0) = true
  bit : mask.testBit r.toNat = true
  chs : (chars e f C.src t.length).map Ch.asc = t
  next : uasc e f (offs e f C.src t.length) = as.headD 0

theorem Starts.run {C : Cfg} {r : ElementType} {t as : List Byte} (h : Starts e f mask C r t as) {ss : List Seg} {vs : List Ch}
    (h1 : chars e f C.src t.length = ss.flatMap Seg.text ++ vs)
    (h2 : SegsOk (userChar C) (uasc e f (offs e f C.src (ss.flatMap Seg.text).length)) ss) :
    ∃ m D cr isTok, Steps e f mask m C D ∧ D.state = C.state ∧ D.tokenpos = C.src ∧ userChar D = userChar C ∧
      D.src = offs e f C.src (ss.flatMap Seg.text).length ∧ D.out = value e C.output ss ∧ Mach.Tok D cr ∧ Reads mask D.state isTok r ∧ isTok .Amp = false ∧
      Span e f D.src vs (offs e f C.src t.length) ∧ (isTok (controlCharMap (as.headD 0)) = false ∧ as.headD 0 ≠ 38) := by
  obtain ⟨op, kind, isTok, ha, ht, hkd, hus, hend⟩ := h.op
  have hke := kind_ends _ _ _ ht hkd
  have hr : Reads mask C.state isTok r := ⟨op, ha, ht, h.bit⟩
  have hamp : isTok .Amp = false := by
    have := hke 38 (by omega)
    rw [ends_amp, show controlCharMap 38 = .Amp by decide +kernel] at this
    simpa using this
  have hidle := h.inv.idle (by rw [h.id]; rfl) (by rw [h.id]; simp)
  have s1 : step e f mask C = (none, idTo .ParsingToken { C with tokenpos := C.src, out := [] }) := by
    rw [step_tok hr (by rw [h.id]; simp)]
    unfold tokStep
    rw [h.id]
  have ht1 : Mach.Tok (idTo .ParsingToken { C with tokenpos := C.src, out := [] }) false :=
    ⟨rfl, hidle.cr, hidle.pos, hidle.val, hidle.buf⟩
  have hsp : Span e f C.src (ss.flatMap Seg.text ++ vs) (offs e f C.src t.length) := by rw [← h1]; exact span_chars _ _
  obtain ⟨k1, p1, p2⟩ := hsp.split
  have hk1 := p1.eq.2
  obtain ⟨cr, m, D, d1, d2, d3, d4, d5⟩ := segs_run (e := e) (f := f) (mask := mask) (out := C.output) hamp ss
    (A := idTo .ParsingToken { C with tokenpos := C.src, out := [] }) hr ht1 rfl p1 (by rw [← hk1]; exact h2) (by
      intro c hc
      have hc' : c ∈ chars e f C.src t.length := by rw [h1]; exact List.mem_append_left _ hc
      by_cases h38 : c.asc = 38
      · exact .inr h38
      · left
        rw [hke _ (chars_lt _ _ c hc'), hus c hc']
        simp [h38])
  refine ⟨m + 1, D, cr, isTok, .cons s1 d1, d2.state, d2.tokenpos, d2.user, by rw [d3, hk1], ?_, d5, by rw [d2.state]; exact hr, hamp, by rw [d3]; exact p2, ?_⟩
  · rw [d4, lines_eq]
    rfl
  · have := hke (as.headD 0) (by rw [← h.next]; exact TW.uasc_lt e f _)
    rw [hend] at this
    refine ⟨by simpa using this, fun h38 => ?_⟩
    rw [h38, ends_amp] at hend
    cases hend

/-- Without unknown entities the end of the token is reached. -/
theorem Starts.known {C : Cfg} {r : ElementType} {t as : List Byte} (h : Starts e f mask C r t as)
    (hk : ∀ pre post, ¬ FirstUnknown (userChar C) t pre post) :
    ∃ (ss : List Seg) (m : Nat) (D : Cfg), ss.flatMap Seg.text = chars e f C.src t.length ∧ SegsOk (userChar C) (as.headD 0) ss ∧
      Steps e f mask m C D ∧ D.tok.id = .ParsingDone ∧ ∀ r' B, step e f mask D = (r', B) → r' ≠ none ∧ B.out = value e C.output ss ∧ B.tokenpos = C.src := by
  obtain ⟨op, kind, isTok0, ha, ht, hkd, hus, hend⟩ := h.op
  obtain ⟨n1, n2⟩ := ends_next kind hend
  obtain ⟨ss, g1, g2⟩ := known_segs (user := userChar C) (us := chars e f C.src t.length) n1 n2 (by rw [h.chs]; exact hk)
  have hlen : (ss.flatMap Seg.text).length = t.length := by rw [g1, chars_length]
  obtain ⟨m, D, cr, isTok, d1, d2, d3, -, d4, d5, d6, d7, d8, -, d9⟩ := h.run (ss := ss) (vs := []) (by rw [g1, List.append_nil])
    (by rw [hlen, h.next]; exact g2)
  rw [hlen] at d4
  have hu : uasc e f D.src = as.headD 0 := by rw [d4]; exact h.next
  have s2 : step e f mask D = (none, initTok .ParsingDone D) := by
    rw [step_tok d7 (by rw [d6.id]; simp)]
    unfold tokStep
    rw [d6.id]
    simp only
    rw [if_neg, if_neg]
    · intro h
      unfold cls at h
      have hx : ∀ a : _root_.Fin 256, controlCharMap a.1 = .Amp → a.1 = 38 := by decide +kernel
      have := hx ⟨_, TW.uasc_lt e f _⟩ h
      exact d9.2 (by rw [← hu]; exact this)
    · unfold cls
      rw [hu, d9.1]
      simp
  refine ⟨ss, m + 1, initTok .ParsingDone D, g1, g2, d1.snoc s2, rfl, fun r' B hs => ?_⟩
  rw [step_end (A := initTok .ParsingDone D) d7 rfl] at hs
  obtain ⟨-, t2, t3, t4⟩ := trans_ret hs
  refine ⟨?_, by rw [t2]; exact d5, by rw [t3]; exact d3⟩
  rcases t4 with t4 | t4
  · rw [t4]; nofun
  · rw [t4]
    unfold Scanner.loopEnd
    rw [if_neg (tok_arg _ _ _ ha (by rw [ht]; nofun))]
    nofun

/-- An unknown entity is an error; the source stands at its semicolon. -/
theorem undef_stop {isTok : Cc → Bool} {arg : ElementType} {A : Cfg} {cr : Bool} (hr : Reads mask A.state isTok arg)
    (ht : Mach.Tok A cr) (hc : isTok .Amp = false) {cs0 vs : List Ch} {ns post : List Byte} {k : Nat} (hs : Span e f A.src (cs0 ++ vs) k)
    (hu : userChar A = none) (hcs : cs0.map Ch.asc = 38 :: ns) (hv : vs.map Ch.asc = 59 :: post) (hn : UnknownName ns) :
    ∃ m B, Fin e f mask m A .ErrorOccurred B ∧ B.error = .ErrUndefinedCharacterEntity ∧ B.src = offs e f A.src cs0.length ∧ B.state = A.state ∧
      B.tok.id = .Start ∧ B.out = A.out ∧ B.tokenpos = A.tokenpos := by
  obtain ⟨n2, n1, n3, n4⟩ := hn
  obtain ⟨k1, hsA, hs'⟩ := hs.split
  have hk1 := hsA.eq.2
  clear hs
  cases cs0 with
  | nil => cases hcs
  | cons c0 cs =>
    simp only [List.map_cons, List.cons.injEq] at hcs
    obtain ⟨h38, rfl⟩ := hcs
    obtain ⟨rfl, hs⟩ := hsA
    have h59 : uasc e f k1 = 59 := by
      cases vs with
      | nil => cases hv
      | cons y ys =>
        simp only [List.map_cons, List.cons.injEq] at hv
        rw [← hv.1, hs'.1]
        rfl
    have h35' : uasc e f (A.src + ulen e f A.src) ≠ 35 := by
      cases cs with
      | nil =>
        cases hs
        rw [h59]
        decide
      | cons d ds =>
        intro h
        apply n3
        rw [List.map_cons, List.head?_cons, hs.1]
        exact congrArg some h
    obtain ⟨m1, B1, g1, g2, g3, g4, g5⟩ := named_start hr ht hc h38 h35'
    obtain ⟨m2, B2, f1, f2, f3, f4, f5⟩ := name_run cs (A := B1) (by rw [g2.state]; exact hr) g5 (by rw [g3]; exact hs)
      (fun c hc => n1 _ (List.mem_map_of_mem hc)) (by simpa using n2)
    rw [List.nil_append] at f5
    have hasc : asc e f B2 = 59 := asc_of (by rw [f3]; exact h59) (by omega)
    have hbuf : ((B2.tok.buf.set B2.tok.pos 0).takeWhile (· ≠ 0)) = cs.map Ch.asc := by
      rw [f5.pos]
      exact takeWhile_name (fun a ha => by have := (name_lt (n1 a ha)).2.2; omega) f5.take (by rw [f5.buf]; omega)
    have hec : entityChar B2 ((B2.tok.buf.set B2.tok.pos 0).takeWhile (· ≠ 0)) = none := by
      rw [hbuf]
      unfold entityChar
      rw [predefined_none n4]
      have : userChar B2 = none := by rw [(g2.trans f2).user]; exact hu
      unfold userChar at this
      cases hm : B2.entityMap with
      | none => rfl
      | some m => rw [hm] at this; exact this
    refine ⟨m1 + m2, initTok .Start { tokTo (fun t => { t with buf := B2.tok.buf.set B2.tok.pos 0 }) B2 with
        error := .ErrUndefinedCharacterEntity }, ⟨B2, g1.trans f1, ?_⟩, rfl, ?_, (g2.trans f2).state, rfl, ?_, (g2.trans f2).tokenpos⟩
    · rw [step_tok (by rw [f2.state, g2.state]; exact hr) (by rw [f5.id]; simp)]
      unfold tokStep
      rw [f5.id]
      simp only [hasc, ne_eq, not_true_eq_false, false_and, and_false, if_false, if_true]
      simp only [ne_eq] at hec
      rw [hec]
    · exact f3.trans hk1.symm
    · exact f4.trans g4

/-- With an unknown entity the token ends with an error at its semicolon. -/
theorem Starts.unknown {C : Cfg} {r : ElementType} {t as pre post : List Byte} (h : Starts e f mask C r t as)
    (hk : FirstUnknown (userChar C) t pre post) :
    ∃ (ss : List Seg) (m : Nat) (B : Cfg), ss.flatMap Seg.text = chars e f C.src pre.length ∧ SegsOk (userChar C) 38 ss ∧
      Fin e f mask m C .ErrorOccurred B ∧ B.error = .ErrUndefinedCharacterEntity ∧ B.src = offs e f C.src (t.length - (post.length + 1)) ∧
      post.length + 1 ≤ t.length ∧ B.state = C.state ∧ B.tok.id = .Start ∧ B.out = value e C.output ss ∧ B.tokenpos = C.src := by
  obtain ⟨ss, cs, vs, ns, g1, g2, g3, g4, g5, g6, g7⟩ := first_segs h.chs hk
  have hpre : (ss.flatMap Seg.text).length = pre.length := by rw [← g2, List.length_map]
  have hvs : vs.length = post.length + 1 := by rw [← List.length_map (f := Ch.asc), g5]; rfl
  have hlen : t.length = pre.length + (cs.length + (post.length + 1)) := by
    have := congrArg List.length g1
    rw [chars_length, List.length_append, List.length_append, hpre, hvs] at this
    exact this
  have hsp : Span e f C.src (ss.flatMap Seg.text ++ (cs ++ vs)) (offs e f C.src t.length) := by rw [← g1]; exact span_chars _ _
  obtain ⟨k1, p1, p2⟩ := hsp.split
  have hk1 := p1.eq
  have h38 : uasc e f (offs e f C.src (ss.flatMap Seg.text).length) = 38 := by
    rw [hk1.2]
    cases cs with
    | nil => cases g4
    | cons c cs =>
      rw [List.map_cons] at g4
      rw [← (List.cons.inj g4).1, p2.1]
      rfl
  obtain ⟨m, D, cr, isTok, d1, d2, d3, d3', d4, d5, d6, d7, d8, d9, -⟩ := h.run g1 (by rw [h38]; exact g3)
  obtain ⟨m', B, b1, b2, b3, b4, b5, b6, b7⟩ := undef_stop d7 d6 d8 d9 (by rw [d3']; exact g7) g4 g5 g6
  refine ⟨ss, m + m', B, by rw [← hpre]; exact hk1.1.symm, g3, Fin.later d1 b1, b2, ?_, by omega, b4.trans d2, b5, b6.trans d5, b7.trans d3⟩
  rw [b3, d4, ← offs_add, hpre]
  congr 1
  omega

/-! ## Calls -/

/-- The token in front of a configuration that reads one asked for. -/
theorem LGoes.starts {N : Nat} {C : Cfg} {ts : List Item} {r : ElementType} {isTok : Cc → Bool} (h : LGoes e f mask N C ts)
    (hid : C.tok.id = .Start) (hr : Reads mask C.state isTok r) :
    ∃ t as ts', ts = (r, some (t, as)) :: ts' ∧ Starts e f mask C r t as ∧ (t ++ as).length ≤ N ∧ C.src = offs e f 0 (N - (t ++ as).length) ∧
      view e f C.src (t ++ as).length = t ++ as ∧ ∀ t1 t2, t = t1 ++ t2 → LAuto C.state (t2 ++ as) ((r, some (t2, as)) :: ts') := by
  obtain ⟨op, a1, a2, a3⟩ := hr
  obtain ⟨kind, -, g2⟩ := kind_of_reads _ (STMState.mem_all _) _ _ a1 (by rw [a2]; simp)
  obtain ⟨n, ts2, hn, hsrc, hfa, hl⟩ := h.left
  obtain ⟨t, as, b1, b2, b3, q', as'', ts'', b4, b5, b6⟩ := (hl.start hid).token' a1 a2
  rw [b6] at hfa
  obtain ⟨x, w1, w2⟩ := Fades.cons hfa
  cases w2 a3
  have hlen : (t ++ as).length = n := by
    rw [← b3]; unfold view; rw [List.length_map, chars_length]
  have hne : as ≠ [] := by
    rintro rfl
    rcases b4 with ⟨b, m1, -⟩ | ⟨-, -, b, m1, -⟩ <;> cases m1
  have hsp : n = t.length + as.length := by rw [← hlen, List.length_append]
  have hv : view e f C.src n = view e f C.src t.length ++ view e f (offs e f C.src t.length) as.length := by
    unfold view; rw [hsp, chars_add, List.map_append]
  have hvl : ∀ k l, (view e f k l).length = l := fun k l => by unfold view; rw [List.length_map, chars_length]
  have b3' := b3
  rw [hv] at b3
  obtain ⟨v1, v2⟩ := List.append_inj b3 (hvl _ _)
  have hhead : uasc e f (offs e f C.src t.length) = as.headD 0 := by
    cases as with
    | nil => exact absurd rfl hne
    | cons a as => rw [List.length_cons, view_succ] at v2; exact (List.cons.inj v2).1
  refine ⟨t, as, ts'', w1, ⟨h.inv, hid, ⟨op, kind, isTok, a1, a2, g2, ?_, ?_⟩, a3, v1, hhead⟩, by omega, by rw [hlen]; exact hsrc, by rw [hlen]; exact b3', ?_⟩
  · intro c hc
    refine (Accept.inToken_iff a2 g2 _).1 (b1 _ ?_)
    rw [← v1]
    exact List.mem_map_of_mem hc
  · cases as with
    | nil => exact absurd rfl hne
    | cons a as =>
      have := b2 a rfl
      rw [Accept.inToken_iff a2 g2] at this
      simpa using this
  · rintro t1 t2 rfl
    exact .tok a1 a2 (fun a ha => b1 a (List.mem_append_right _ ha)) b2 b4 b5

theorem LGoes.err {N : Nat} {A B : Cfg} {ts : List Item} (h : LGoes e f mask N A ts) (hs : Mach.step e f mask A = (some .ErrorOccurred, B)) :
    inRef A.tok.id = true := by
  obtain ⟨n, ts2, hn, hsrc, hfa, hl⟩ := h.left
  rw [← seen_nil] at hl
  rcases step_items (.inr rfl) h.inv h.busy hl hs with ⟨k1, -⟩ | ⟨-, -, k2⟩ | ⟨-, k2, -⟩
  · cases k1
  · exact k2
  · exact absurd rfl k2

/-- What is said about an item with text `t`, or with the text `t` before an error: where it starts and its value. -/
structure Valued (e : Enc) (f : Nat → Byte) (user : Option UChar) (output : Enc) (N : Nat) (t as : List Byte) (v : List Byte) (next : Byte) (B : Cfg) : Prop where
  le : (t ++ as).length ≤ N
  pos : B.tokenpos = offs e f 0 (N - (t ++ as).length)
  chs : (chars e f B.tokenpos t.length).map Ch.asc = t
  out : ∃ ss : List Seg, ss.flatMap Seg.text = chars e f B.tokenpos v.length ∧ SegsOk user next ss ∧ B.out = value e output ss

/-- A call. -/
theorem LGoes.told {N m : Nat} {A B : Cfg} {r : ElementType} {ts : List Item} (h : LGoes e f mask N A ts) (hid : Idle A)
    (hts : ∀ x ∈ ts, x.2 ≠ none → kindsOf x.1 ≠ [])
    (hs : Fin e f mask m A r B) (c : Bool) :
    (r = .Exit ∧ (∃ x, ts = [(.Exit, x)]) ∧ B.state = .EXIT) ∨
    (r = .ErrorOccurred ∧ B.error = .ErrUndefinedCharacterEntity ∧ ∃ ty t as ts' pre post, ts = (ty, some (t, as)) :: ts' ∧ mask.testBit ty.toNat = true ∧
      FirstUnknown (userChar A) t pre post ∧ Valued e f (userChar A) A.output N t as pre 38 B ∧
      ∀ mask', LGoes e f mask' N (clr c B) ((ty, some (59 :: post, as)) :: ts')) ∨
    (r ≠ .Exit ∧ r ≠ .ErrorOccurred ∧ ∃ x ts', ts = (r, x) :: ts' ∧ (∀ mask', LGoes e f mask' N (clr c B) ts') ∧
      (mask.testBit r.toNat = true → ∀ t as, x = some (t, as) → (∀ pre post, ¬ FirstUnknown (userChar A) t pre post) ∧
        Valued e f (userChar A) A.output N t as t (as.headD 0) B)) := by
  rcases h.call hid hts hs c with h1 | ⟨rfl, -⟩ | ⟨h1, h2, x, ts', h3, h4, -⟩
  · exact .inl h1
  · right; left
    have hs' := hs
    obtain ⟨A1, s1, s2⟩ := hs
    have g1 := (h.steps s1).err s2
    have g2 : inTok A1.tok.id = true := by
      cases hx : A1.tok.id <;> rw [hx] at g1 <;> first | rfl | cases g1
    obtain ⟨isTok, arg, hr⟩ := (h.steps s1).inv.tok g2
    obtain ⟨i, j, C, c1, c2, c3, c4, c5⟩ := steps_since s1 hid ⟨_, _, hr⟩ (by intro hx; rw [hx] at g2; cases g2)
    have hC : Fin e f mask j C .ErrorOccurred B := ⟨A1, c2, s2⟩
    have hsame := steps_same c1
    obtain ⟨t, as, ts', w1, w2, w3, w4, w5, w6⟩ := (h.steps c1).starts c4 (by rw [c3]; exact hr)
    by_cases hun : ∃ pre post, FirstUnknown (userChar C) t pre post
    · obtain ⟨pre, post, hun⟩ := hun
      obtain ⟨ss, m', B', b1, b2, b3, b4, b5, b6, b7, b8, b9, b10⟩ := w2.unknown hun
      obtain ⟨-, -, rfl⟩ := b3.det hC
      obtain ⟨ns, hns, -⟩ := hun.2.1
      have e1 := clr_same c B'
      refine ⟨rfl, b4, arg, t, as, ts', pre, post, w1, hr.choose_spec.2.2, by rw [← hsame.user]; exact hun,
        ⟨w3, by rw [b10]; exact w4, by rw [b10]; exact w2.chs, ss, by rw [b10]; exact b1, by rw [← hsame.user]; exact b2, by rw [← hsame.1]; exact b9⟩, fun mask' => ?_⟩
      have hlen : (t ++ as).length = (t.length - (post.length + 1)) + (59 :: post ++ as).length := by simp; omega
      have hview : view e f B'.src (59 :: post ++ as).length = 59 :: post ++ as := by
        have h9 : view e f C.src (t ++ as).length = view e f C.src (t.length - (post.length + 1)) ++ view e f (offs e f C.src (t.length - (post.length + 1))) (59 :: post ++ as).length := by
          rw [hlen]; unfold view; rw [chars_add, List.map_append]
        rw [w5] at h9
        rw [b5]
        have hx : t ++ as = (pre ++ 38 :: ns) ++ (59 :: post ++ as) := by rw [hns]; simp
        rw [hx] at h9
        refine (List.append_inj h9 ?_).2.symm
        unfold view
        rw [List.length_map, chars_length, hns]
        simp
        omega
      have e3 : (clr c B').src = B'.src := e1.2.2
      refine ⟨((step_ret (h.steps s1).inv s2).clr c).inv mask', ?_, ⟨(59 :: post ++ as).length, _, by omega, ?_, .inl rfl, ?_⟩, fun _ => by rw [e1.1, b8]; rfl⟩
      · intro hx; rw [e1.1, b8] at hx; cases hx
      · rw [e3, b5, w4, ← offs_add]
        congr 1
        omega
      · rw [e3, hview]
        refine LLeft.ofStart (by rw [e1.1]; exact b8) ?_
        rw [e1.2.1, b7]
        exact w6 (pre ++ 38 :: ns) (59 :: post) (by rw [hns])
    · exfalso
      obtain ⟨ss, m', D, -, -, d3, d4, d5⟩ := w2.known fun pre post hx => hun ⟨pre, post, hx⟩
      obtain ⟨-, hD⟩ := hC.split d3
      obtain ⟨⟨y0, B1⟩, hy⟩ : ∃ y, Mach.step e f mask D = y := ⟨_, rfl⟩
      have d5' := d5 _ _ hy
      obtain ⟨y, rfl⟩ := Option.ne_none_iff_exists'.1 d5'.1
      have hD' : Fin e f mask 0 D y B1 := ⟨D, .refl _, hy⟩
      obtain ⟨-, rfl, -⟩ := hD'.det hD
      have := (h.steps (c1.trans d3)).err hy
      rw [d4] at this
      cases this
  · right; right
    refine ⟨h1, h2, x, ts', h3, h4, ?_⟩
    rintro hbit t as rfl
    have hkr : kindsOf r ≠ [] := hts (r, some (t, as)) (by rw [h3]; simp) nofun
    obtain ⟨i, C, n, isTok, c1, c2, c3, c4, c5⟩ := fin_token h.inv hid hs hkr hbit
    have hsame := steps_same c1
    obtain ⟨t', as', ts'', w1, w2, w3, w4, w5, w6⟩ := (h.steps c1).starts c4 c3
    rw [h3] at w1
    cases w1
    have hun : ∀ pre post, ¬ FirstUnknown (userChar C) t pre post := by
      intro pre post hun
      obtain ⟨ss, m', B', b1, b2, b3, -⟩ := w2.unknown hun
      exact h2 (b3.det c2).2.1.symm
    refine ⟨by rw [← hsame.user]; exact hun, ?_⟩
    obtain ⟨ss, m', D, d1, d2, d3, d4, d5⟩ := w2.known hun
    obtain ⟨-, hD⟩ := c2.split d3
    obtain ⟨⟨y0, B1⟩, hy⟩ : ∃ y, Mach.step e f mask D = y := ⟨_, rfl⟩
    have d5' := d5 _ _ hy
    obtain ⟨y, rfl⟩ := Option.ne_none_iff_exists'.1 d5'.1
    have hD' : Fin e f mask 0 D y B1 := ⟨D, .refl _, hy⟩
    obtain ⟨-, -, rfl⟩ := hD'.det hD
    exact ⟨w3, by rw [← c5]; exact w4, by rw [← c5]; exact w2.chs, ss, by rw [← c5]; exact d1, by rw [← hsame.user]; exact d2, by rw [← hsame.1]; exact d5'.2.1⟩

end TW.AcceptItems
