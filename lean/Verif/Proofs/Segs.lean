import Verif.Proofs.Text
import Verif.Spec.Delivered

/-!
# Every text can be read as a sequence of pieces
-/

namespace TW

open Spec

theorem head_append (next : Byte) (xs ys : List Byte) : (xs ++ ys).headD next = xs.headD (ys.headD next) := by
  cases xs <;> rfl

/-- The longest prefix of at most `n` characters with property `p`. -/
theorem split_while (p : Byte → Bool) : ∀ (n : Nat) (us : List Ch) (next : Byte), ∃ as bs, us = as ++ bs ∧ as.length ≤ n ∧
    (∀ a ∈ as.map Ch.asc, p a = true) ∧ (p next = false → p ((bs.map Ch.asc).headD next) = false ∨ as.length = n)
  | 0, us, next => ⟨[], us, rfl, Nat.le_refl _, (fun _ h => nomatch h), fun _ => .inr rfl⟩
  | n + 1, [], next => ⟨[], [], rfl, Nat.zero_le _, (fun _ h => nomatch h), fun h => .inl h⟩
  | n + 1, u :: us, next => by
    by_cases hu : p u.asc = true
    · obtain ⟨as, bs, rfl, h1, h2, h3⟩ := split_while p n us next
      refine ⟨u :: as, bs, rfl, by simp; omega, ?_, fun h => (h3 h).imp id (by simp)⟩
      intro a ha
      simp only [List.map_cons, List.mem_cons] at ha
      rcases ha with rfl | ha
      · exact hu
      · exact h2 a ha
    · exact ⟨[], u :: us, rfl, Nat.zero_le _, (fun _ h => nomatch h), fun _ => .inl (by simpa using hu)⟩

theorem numeral_some {base : Nat} {digit : Byte → Option Nat} : ∀ (ds : List Byte) (v : Nat),
    (∀ a ∈ ds, (digit a).isSome = true) → ∃ v', numeral base digit ds v = some v'
  | [], v, _ => ⟨v, rfl⟩
  | d :: ds, v, h => by
    obtain ⟨x, hx⟩ := Option.isSome_iff_exists.1 (h d (by simp))
    obtain ⟨v', hv⟩ := numeral_some (base := base) ds (v * base + x) (fun a ha => h a (by simp [ha]))
    exact ⟨v', by simp [numeral, hx, hv]⟩

/-- The text starts with a name that is not defined: `&name;`. -/
def Undefined (user : Option UChar) (us : List Ch) : Prop :=
  user = none ∧ ∃ ns post, us.map Ch.asc = 38 :: ns ++ 59 :: post ∧ ns.length ≤ 15 ∧ (∀ a ∈ ns, nameChar a = true) ∧
    ns.head? ≠ some 35 ∧ ns ∉ entities.map (fun x => codes x.1)

/-- An ampersand starts a piece. -/
theorem amp_piece (user : Option UChar) (c : Ch) (us : List Ch) (next : Byte) (hc : c.asc = 38)
    (hn : nameChar next = false) (h59 : next ≠ 59) :
    Undefined user (c :: us) ∨ ∃ s rest, c :: us = s.text ++ rest ∧ s.text ≠ [] ∧
      ∀ (next' : Byte) (ss : List Seg), firstOf next' ss = (rest.map Ch.asc).headD next → SegsOk user next' ss →
        SegsOk user next' (s :: ss) := by
  have hname : ∀ a : Byte, nameChar a = false → decDigit a = none ∧ hexaDigit a = none ∧ a ≠ 120 ∧ a ≠ 35 := by
    intro a ha
    by_cases h : a < 128
    · have : ∀ a : Fin 128, nameChar a.1 = false →
          decDigit a.1 = none ∧ hexaDigit a.1 = none ∧ a.1 ≠ 120 ∧ a.1 ≠ 35 := by decide +kernel
      exact this ⟨a, h⟩ ha
    · unfold decDigit hexaDigit
      rw [if_neg (by omega), if_neg (by omega), if_neg (by omega), if_neg (by omega)]
      exact ⟨rfl, rfl, by omega, by omega⟩
  obtain ⟨nd, nh, n120, n35⟩ := hname next hn
  -- a semicolon in front of the rest
  have semi : ∀ bs : List Ch, (bs.map Ch.asc).headD next = 59 → ∃ b cs, bs = b :: cs ∧ b.asc = 59 := by
    intro bs h
    cases bs with
    | nil => exact absurd h h59
    | cons b cs => exact ⟨b, cs, rfl, h⟩
  cases us with
  | nil =>
    right
    refine ⟨.lone [c], [], rfl, by simp [Seg.text], fun next' ss g1 g2 => ⟨?_, g2⟩⟩
    rw [g1]
    have := Lone.name [] next (by simp) (by simp) (by simp) h59 (.inl hn)
    simpa [hc] using this
  | cons d us =>
    by_cases h35 : d.asc = 35
    · -- a number
      cases us with
      | nil =>
        right
        refine ⟨.lone [c, d], [], rfl, by simp [Seg.text], fun next' ss g1 g2 => ⟨?_, g2⟩⟩
        rw [g1]
        have := Lone.number [] next (by simp) (by simp) (.inl nd) (.inl h59) (fun _ => n120)
        simpa [hc, h35] using this
      | cons x us =>
        by_cases hx : x.asc = 120
        · obtain ⟨as, bs, rfl, h1, h2, h3⟩ := split_while (fun a => (hexaDigit a).isSome) 16 us next
          have h3 := h3 (by simp [nh])
          by_cases h16 : as.length = 16
          · right
            refine ⟨.odd (c :: d :: x :: as) (38 :: 35 :: as.map Ch.asc), bs, rfl, by simp [Seg.text],
              fun next' ss g1 g2 => ⟨?_, g2⟩⟩
            have := Garbled.hex (user := user) (as.map Ch.asc) (firstOf next' ss) (by simp; omega) h2
              (.inr (by simpa using h16)) (.inr (by simpa using h16))
            simpa [hc, h35, hx] using this
          · have h3 := h3.resolve_right h16
            by_cases hs : (bs.map Ch.asc).headD next = 59
            · obtain ⟨b, bs, rfl, hb⟩ := semi bs hs
              obtain ⟨v, hv⟩ := numeral_some (base := 16) (as.map Ch.asc) 0 h2
              right
              cases as with
              | nil =>
                refine ⟨.odd [c, d, x, b] [0], bs, rfl, by simp [Seg.text], fun next' ss g1 g2 => ⟨?_, g2⟩⟩
                have := Garbled.noHex (user := user) (firstOf next' ss)
                simpa [hc, h35, hx, hb] using this
              | cons a as =>
                by_cases hbig : v ≤ 0xFFFFFFFF
                · refine ⟨.ref (c :: d :: x :: (a :: as) ++ [b]) v, bs, by simp [Seg.text], by simp [Seg.text],
                    fun next' ss g1 g2 => ⟨?_, g2⟩⟩
                  have := Reference.hex ((a :: as).map Ch.asc) v (by simp) (by simp at h1 h16 ⊢; omega) hv hbig
                  simpa [hc, h35, hx, hb] using this
                · refine ⟨.odd (c :: d :: x :: a :: as) (38 :: 35 :: (a :: as).map Ch.asc ++ [59]), b :: bs,
                    by simp [Seg.text], by simp [Seg.text], fun next' ss g1 g2 => ⟨?_, g2⟩⟩
                  rw [g1]
                  have := Garbled.bigHex (user := user) ((a :: as).map Ch.asc) v (by simp at h1 h16 ⊢; omega) hv (by omega)
                  simpa [hc, h35, hx, hb] using this
            · right
              refine ⟨.odd (c :: d :: x :: as) (38 :: 35 :: as.map Ch.asc), bs, rfl, by simp [Seg.text],
                fun next' ss g1 g2 => ⟨?_, g2⟩⟩
              rw [g1]
              have := Garbled.hex (user := user) (as.map Ch.asc) ((bs.map Ch.asc).headD next) (by simp; omega) h2
                (.inl (by simpa using h3)) (.inl hs)
              simpa [hc, h35, hx] using this
        · obtain ⟨as, bs, hab, h1, h2, h3⟩ := split_while (fun a => (decDigit a).isSome) 16 (x :: us) next
          have h3 := h3 (by simp [nd])
          have hx' : as = [] → (bs.map Ch.asc).headD next ≠ 120 := by
            rintro rfl
            rw [List.nil_append] at hab
            rw [← hab]
            exact hx
          rw [hab]
          by_cases h16 : as.length = 16
          · right
            refine ⟨.lone (c :: d :: as), bs, rfl, by simp [Seg.text], fun next' ss g1 g2 => ⟨?_, g2⟩⟩
            have := Lone.number (as.map Ch.asc) (firstOf next' ss) (by simp; omega) h2
              (.inr (by simpa using h16)) (.inr (by simpa using h16)) (by rintro h; simp at h; simp [h] at h16)
            simpa [hc, h35] using this
          · have h3 := h3.resolve_right h16
            by_cases hs : (bs.map Ch.asc).headD next = 59
            · obtain ⟨b, bs, rfl, hb⟩ := semi bs hs
              obtain ⟨v, hv⟩ := numeral_some (base := 10) (as.map Ch.asc) 0 h2
              right
              cases as with
              | nil =>
                refine ⟨.odd [c, d, b] [0], bs, rfl, by simp [Seg.text], fun next' ss g1 g2 => ⟨?_, g2⟩⟩
                have := Garbled.noDec (user := user) (firstOf next' ss)
                simpa [hc, h35, hb] using this
              | cons a as =>
                by_cases hbig : v ≤ 0xFFFFFFFF
                · refine ⟨.ref (c :: d :: (a :: as) ++ [b]) v, bs, by simp [Seg.text], by simp [Seg.text],
                    fun next' ss g1 g2 => ⟨?_, g2⟩⟩
                  have := Reference.dec ((a :: as).map Ch.asc) v (by simp) (by simp at h1 h16 ⊢; omega) hv hbig
                  simpa [hc, h35, hb] using this
                · refine ⟨.odd (c :: d :: a :: as) (38 :: 35 :: (a :: as).map Ch.asc ++ [59]), b :: bs,
                    by simp [Seg.text], by simp [Seg.text], fun next' ss g1 g2 => ⟨?_, g2⟩⟩
                  rw [g1]
                  have := Garbled.bigDec (user := user) ((a :: as).map Ch.asc) v (by simp at h1 h16 ⊢; omega) hv (by omega)
                  simpa [hc, h35, hb] using this
            · right
              refine ⟨.lone (c :: d :: as), bs, rfl, by simp [Seg.text], fun next' ss g1 g2 => ⟨?_, g2⟩⟩
              rw [g1]
              have := Lone.number (as.map Ch.asc) ((bs.map Ch.asc).headD next) (by simp; omega) h2
                (.inl (by simpa using h3)) (.inl hs) (fun h => hx' (by simpa using h))
              simpa [hc, h35] using this
    · -- a name
      obtain ⟨as, bs, hab, h1, h2, h3⟩ := split_while nameChar 15 (d :: us) next
      have h3 := h3 hn
      have hhead : (as.map Ch.asc).head? ≠ some 35 := by
        cases as with
        | nil => simp
        | cons a as =>
          simp only [List.cons_append, List.cons.injEq] at hab
          rw [← hab.1]
          simpa using h35
      rw [hab]
      by_cases hs : (bs.map Ch.asc).headD next = 59
      · obtain ⟨b, bs, rfl, hb⟩ := semi bs hs
        by_cases hin : as.map Ch.asc ∈ entities.map (fun x => codes x.1)
        · right
          obtain ⟨⟨s, v⟩, hm, hs'⟩ := List.mem_map.1 hin
          refine ⟨.ref (c :: as ++ [b]) v, bs, by simp [Seg.text], by simp [Seg.text], fun next' ss g1 g2 => ⟨?_, g2⟩⟩
          have := Reference.named s v hm
          simp only at hs'
          rw [hs'] at this
          simpa [hc, hb] using this
        · cases user with
          | none =>
            left
            exact ⟨rfl, as.map Ch.asc, bs.map Ch.asc, by simp [hc, hb], by simpa using h1, h2, hhead, hin⟩
          | some v =>
            right
            refine ⟨.odd (c :: as ++ [b]) [v], bs, by simp [Seg.text], by simp [Seg.text], fun next' ss g1 g2 => ⟨?_, g2⟩⟩
            have := Garbled.user (user := some v) (as.map Ch.asc) v (firstOf next' ss) (by simpa using h1) h2 hhead hin rfl
            simpa [hc, hb] using this
      · right
        refine ⟨.lone (c :: as), bs, rfl, by simp [Seg.text], fun next' ss g1 g2 => ⟨?_, g2⟩⟩
        rw [g1]
        have := Lone.name (as.map Ch.asc) ((bs.map Ch.asc).headD next) (by simpa using h1) h2 hhead hs (by simpa using h3)
        simpa [hc] using this

/-- Every text is a sequence of pieces, up to the first name that is not defined. -/
theorem exists_segs (user : Option UChar) (next : Byte) (hn : nameChar next = false) (h59 : next ≠ 59) :
    ∀ (n : Nat) (us : List Ch), us.length ≤ n → (∃ ss : List Seg, ss.flatMap Seg.text = us ∧ SegsOk user next ss) ∨
      ∃ (ss : List Seg) (vs : List Ch), us = ss.flatMap Seg.text ++ vs ∧ SegsOk user 38 ss ∧ Undefined user vs := by
  intro n
  induction n with
  | zero =>
    intro us hl
    cases us with
    | nil => exact .inl ⟨[], rfl, trivial⟩
    | cons u us => simp at hl
  | succ n ih =>
    intro us hl
    cases us with
    | nil => exact .inl ⟨[], rfl, trivial⟩
    | cons u us =>
      by_cases h38 : u.asc = 38
      · rcases amp_piece user u us next h38 hn h59 with h | ⟨s, rest, h1, h2, h3⟩
        · exact .inr ⟨[], u :: us, rfl, trivial, h⟩
        · have hlen : rest.length ≤ n := by
            have := congrArg List.length h1
            have hp : 0 < s.text.length := List.length_pos_iff.2 h2
            simp only [List.length_append, List.length_cons] at this hl
            omega
          rcases ih rest hlen with ⟨ss, g1, g2⟩ | ⟨ss, vs, g1, g2, g3⟩
          · exact .inl ⟨s :: ss, by rw [List.flatMap_cons, g1, h1], h3 next ss (by rw [← g1]; rfl) g2⟩
          · refine .inr ⟨s :: ss, vs, by rw [List.flatMap_cons, List.append_assoc, ← g1, h1], h3 38 ss ?_ g2, g3⟩
            obtain ⟨-, ns, post, e1, -⟩ := g3
            rw [g1, List.map_append, head_append, e1]
            rfl
      · rcases ih us (by simpa using hl) with ⟨ss, g1, g2⟩ | ⟨ss, vs, rfl, g2, g3⟩
        · exact .inl ⟨.ch u :: ss, by rw [List.flatMap_cons, g1]; rfl, h38, g2⟩
        · exact .inr ⟨.ch u :: ss, vs, rfl, ⟨h38, g2⟩, g3⟩

theorem SegsOk.append {user : Option UChar} {next : Byte} {ss ts : List Seg} (h : SegsOk user (firstOf next ts) ss)
    (h' : SegsOk user next ts) : SegsOk user next (ss ++ ts) := by
  have first : ∀ rs : List Seg, firstOf next (rs ++ ts) = firstOf (firstOf next ts) rs := by
    intro rs
    unfold firstOf
    rw [List.flatMap_append, List.map_append, head_append]
  induction ss with
  | nil => exact h'
  | cons s ss ih =>
    cases s with
    | ch c => exact ⟨h.1, ih h.2⟩
    | ref cs c => exact ⟨h.1, ih h.2⟩
    | lone cs => exact ⟨by have := h.1; rw [← first ss] at this; exact this, ih h.2⟩
    | odd cs ds => exact ⟨by have := h.1; rw [← first ss] at this; exact this, ih h.2⟩

theorem Undefined.append {user : Option UChar} {vs ws : List Ch} (h : Undefined user vs) : Undefined user (vs ++ ws) := by
  obtain ⟨h0, ns, post, h1, h2⟩ := h
  exact ⟨h0, ns, post ++ ws.map Ch.asc, by rw [List.map_append, h1]; simp, h2⟩

/-- Line ends do not go over a piece that is bytes. -/
theorem lines_append (out : Enc) (bs : List Byte) (bt : List Atom) : ∀ at', lines out (at' ++ .bytes bs :: bt) =
    lines out at' ++ bs ++ lines out bt
  | [] => by simp [lines]
  | [.cr] => by simp [lines]
  | [.lf] => by simp [lines]
  | .cr :: .lf :: as => by
    rw [List.cons_append, List.cons_append, lines, lines, lines_append out bs bt as]
    simp
  | .cr :: .cr :: as => by
    have := lines_append out bs bt (.cr :: as)
    have e1 : ∀ xs, lines out (.cr :: .cr :: xs) = out.print 10 ++ lines out (.cr :: xs) := fun xs => by
      conv => lhs; unfold lines
    rw [List.cons_append] at this
    rw [List.cons_append, List.cons_append, e1, this, e1]
    simp
  | .cr :: .bytes b :: as => by
    have := lines_append out bs bt (.bytes b :: as)
    have e1 : ∀ xs, lines out (.cr :: .bytes b :: xs) = out.print 10 ++ lines out (.bytes b :: xs) := fun xs => by
      conv => lhs; unfold lines
    rw [List.cons_append] at this
    rw [List.cons_append, List.cons_append, e1, this, e1]
    simp
  | .lf :: a :: as => by
    rw [List.cons_append, lines, lines_append out bs bt (a :: as), lines]
    simp
  | .bytes b :: as => by
    rw [List.cons_append, lines, lines_append out bs bt as, lines]
    simp

theorem value_append {e out : Enc} {s : Seg} {bs : List Byte} (h : s.atom e out = .bytes bs) (ss ts : List Seg) :
    value e out (ss ++ s :: ts) = value e out ss ++ bs ++ value e out ts := by
  unfold value
  rw [List.map_append, List.map_cons, h, lines_append]

namespace Mach

variable {e : Enc} {f : Nat → Byte} {mask : Nat}

/-- A name that is not defined is an error. -/
theorem undef_run {isTok : Cc → Bool} {arg : ElementType} {A : Cfg} {cr : Bool} (hr : Reads mask A.state isTok arg)
    (ht : Tok A cr) (hc : isTok .Amp = false) {vs : List Ch} {k : Nat} (hs : Span e f A.src vs k)
    (hu : Undefined (userChar A) vs) : ∃ m B, Fin e f mask m A .ErrorOccurred B ∧ B.error = .ErrUndefinedCharacterEntity := by
  obtain ⟨hu0, ns, post, hvs, n2, n1, n3, n4⟩ := hu
  obtain ⟨xs, ys, rfl, a1, a2⟩ := map_asc_split (xs := 38 :: ns) (ys := 59 :: post) (by simpa using hvs)
  obtain ⟨k1, hsA, hs'⟩ := hs.split
  clear hs hvs
  cases xs with
  | nil => cases a1
  | cons c0 cs =>
    simp only [List.map_cons, List.cons.injEq] at a1
    obtain ⟨h38, rfl⟩ := a1
    obtain ⟨rfl, hs⟩ := hsA
    have h59 : uasc e f k1 = 59 := by
      cases ys with
      | nil => cases a2
      | cons y ys =>
        simp only [List.map_cons, List.cons.injEq] at a2
        rw [← a2.1, hs'.1]
        rfl
    have h35' : uasc e f (A.src + ulen e f A.src) ≠ 35 := by
      cases cs with
      | nil =>
        cases hs
        rw [h59]
        decide
      | cons d ds =>
        intro h
        apply n3
        rw [List.map_cons, List.head?_cons, hs.1]
        exact congrArg some h
    obtain ⟨m1, B1, g1, g2, g3, g4, g5⟩ := named_start hr ht hc h38 h35'
    obtain ⟨m2, B2, f1, f2, f3, f4, f5⟩ := name_run cs (A := B1) (by rw [g2.state]; exact hr) g5 (by rw [g3]; exact hs)
      (fun c hc => n1 _ (List.mem_map_of_mem hc)) (by simpa using n2)
    rw [List.nil_append] at f5
    have hasc : asc e f B2 = 59 := asc_of (by rw [f3]; exact h59) (by omega)
    have hbuf : ((B2.tok.buf.set B2.tok.pos 0).takeWhile (· ≠ 0)) = cs.map Ch.asc := by
      rw [f5.pos]
      exact takeWhile_name (fun a ha => by have := (name_lt (n1 a ha)).2.2; omega) f5.take (by rw [f5.buf]; omega)
    have hec : entityChar B2 ((B2.tok.buf.set B2.tok.pos 0).takeWhile (· ≠ 0)) = none := by
      rw [hbuf]
      unfold entityChar
      rw [predefined_none n4]
      have : userChar B2 = none := by rw [(g2.trans f2).user]; exact hu0
      unfold userChar at this
      cases hm : B2.entityMap with
      | none => rfl
      | some m => rw [hm] at this; exact this
    refine ⟨m1 + m2, initTok .Start { tokTo (fun t => { t with buf := B2.tok.buf.set B2.tok.pos 0 }) B2 with
        error := .ErrUndefinedCharacterEntity }, ⟨B2, g1.trans f1, ?_⟩, rfl⟩
    · rw [step_tok (by rw [f2.state, g2.state]; exact hr) (by rw [f5.id]; simp)]
      unfold tokStep
      rw [f5.id]
      simp only [hasc, ne_eq, not_true_eq_false, false_and, and_false, if_false, if_true]
      simp only [ne_eq] at hec
      rw [hec]

theorem chars_lt (l : Nat) : ∀ k, ∀ c ∈ chars e f k l, c.asc < 256 := by
  induction l with
  | zero => intro k c hc; cases hc
  | succ l ih =>
    intro k c hc
    cases hc with
    | head => exact TW.uasc_lt e f k
    | tail _ hc => exact ih _ _ hc

theorem ends_next (kind : Kind) {a : Byte} (h : kind.ends a = true) : nameChar a = false ∧ a ≠ 59 := by
  by_cases ha : a < 128
  · have : ∀ a : _root_.Fin 128, kind.ends a.1 = true → nameChar a.1 = false ∧ a.1 ≠ 59 := by
      cases kind <;> decide +kernel
    exact this ⟨a, ha⟩ h
  · exact ⟨by simp [nameChar]; omega, by omega⟩

/-- The text of a token that is delivered has no names that are not defined. -/
theorem token_defined {C B : Cfg} {n : Nat} {r : ElementType} {op : STMAction} {kind : Kind} (hi : Inv mask C)
    (ha : (stm C.state).action = some (op, r)) (hm : mask.testBit r.toNat = true) (hkd : kindOf op = some kind)
    (hid : C.tok.id = .Start) (h : Fin e f mask n C r B) (hk : kindsOf r ≠ []) {l : Nat}
    (hus : ∀ c ∈ chars e f C.src l, kind.ends c.asc = false)
    {ss : List Seg} {vs : List Ch} (h1 : chars e f C.src l = ss.flatMap Seg.text ++ vs) (h2 : SegsOk (userChar C) 38 ss) :
    ¬ Undefined (userChar C) vs := by
  intro h3
  · have htd : tokenDefs op ≠ none := kinds_tok _ (STMState.mem_all _) _ _ ha hk
    obtain ⟨isTok, ht⟩ := Option.ne_none_iff_exists'.1 htd
    have hke := kind_ends _ _ _ ht hkd
    have hr : Reads mask C.state isTok r := ⟨op, ha, ht, hm⟩
    have hamp : isTok .Amp = false := by
      have := hke 38 (by omega)
      rw [ends_amp, show controlCharMap 38 = .Amp by decide +kernel] at this
      simpa using this
    have hidle := hi.idle (by rw [hid]; rfl) (by rw [hid]; simp)
    have s1 : step e f mask C = (none, idTo .ParsingToken { C with tokenpos := C.src, out := [] }) := by
      rw [step_tok hr (by rw [hid]; simp)]
      unfold tokStep
      rw [hid]
    have ht1 : Tok (idTo .ParsingToken { C with tokenpos := C.src, out := [] }) false :=
      ⟨rfl, hidle.cr, hidle.pos, hidle.val, hidle.buf⟩
    have hsp : Span e f C.src (ss.flatMap Seg.text ++ vs) (offs e f C.src l) := by rw [← h1]; exact span_chars l _
    obtain ⟨k1, p1, p2⟩ := hsp.split
    have h38 : uasc e f k1 = 38 := by
      obtain ⟨-, ns, post, e1, -⟩ := h3
      cases vs with
      | nil => cases e1
      | cons v vs =>
        simp only [List.map_cons, List.cons_append, List.cons.injEq] at e1
        rw [← e1.1, p2.1]
        rfl
    obtain ⟨cr, m, D, d1, d2, d3, d4, d5⟩ := segs_run (e := e) (f := f) (mask := mask) (out := C.output) hamp ss
      (A := idTo .ParsingToken { C with tokenpos := C.src, out := [] }) hr ht1 rfl p1 (by rw [h38]; exact h2) (by
        intro c hc
        have hc' : c ∈ chars e f C.src l := by rw [h1]; exact List.mem_append_left _ hc
        by_cases h38 : c.asc = 38
        · exact .inr h38
        · left
          rw [hke _ (chars_lt _ _ c hc'), hus c hc']
          simp [h38])
    obtain ⟨m', F, f1, -⟩ := undef_run (k := offs e f C.src l) (by rw [d2.state]; exact hr) d5 hamp
      (by rw [d3]; exact p2) (by rw [d2.user]; exact h3)
    have := (Fin.later (Steps.cons s1 d1) f1).det h
    exact hk (by rw [← this.2.1]; rfl)

/-! ## Sessions -/

theorem Known.clr {A : Cfg} (h : Known e f A) (c : Bool) : Known e f (clr c A) := by
  unfold Mach.clr
  split <;> exact h

theorem Same.clr {A : Cfg} (c : Bool) : Same A (clr c A) := by
  unfold Mach.clr
  split <;> exact ⟨rfl, rfl, rfl⟩

theorem clr_src {A : Cfg} (c : Bool) : (clr c A).src = A.src := by
  unfold Mach.clr
  split <;> rfl

theorem Same.user {A B : Cfg} (h : Same A B) : userChar B = userChar A := by
  unfold userChar
  rw [h.2.1, h.2.2]

/-- Every item with text that is reported before an error is a token of the document. -/
theorem runs_text {len : Nat} (hf : Ends f len) {calls : List (Nat × Bool)} {A : Cfg} {os : List (ElementType × Cfg)}
    (h : Runs e f calls A os) : Inv0 A → Idle A → Known e f A → DoneOk e f A → (∃ j, A.src = offs e f 0 j) →
    ∀ i r B mask c, os[i]? = some (r, B) → calls[i]? = some (mask, c) → kindsOf r ≠ [] → mask.testBit r.toNat = true →
    (∀ x ∈ os.take i, x.1 ≠ .ErrorOccurred) →
    ∃ kind ∈ kindsOf r, ∃ l, (∃ j, B.tokenpos = offs e f 0 j) ∧ Lead e f r kind B.tokenpos ∧
      (∀ c ∈ chars e f B.tokenpos l, kind.ends c.asc = false) ∧
      kind.ends (uasc e f (offs e f B.tokenpos l)) = true ∧
      (∀ (ss : List Seg) (vs : List Ch), chars e f B.tokenpos l = ss.flatMap Seg.text ++ vs →
        SegsOk (userChar A) 38 ss → ¬ Undefined (userChar A) vs) ∧
      ∀ ss : List Seg, ss.flatMap Seg.text = chars e f B.tokenpos l →
        SegsOk (userChar A) (uasc e f (offs e f B.tokenpos l)) ss → B.out = value e A.output ss := by
  induction h with
  | nil => intro _ _ _ _ _ i r B mask c h; simp at h
  | @cons mask0 c0 cs A B0 m r0 os h1 _ ih =>
    intro hi hid hk hd hj i r B mask c ho hc hkr hm he
    cases i with
    | zero =>
      simp only [List.getElem?_cons_zero, Option.some.injEq, Prod.mk.injEq] at ho hc
      obtain ⟨rfl, rfl⟩ := ho
      obtain ⟨rfl, rfl⟩ := hc
      obtain ⟨i, C, n, isTok, c1, c2, c3, c4, c5⟩ := fin_token (hi.inv _) hid h1 hkr hm
      obtain ⟨op, a1, a2, a3⟩ := c3
      obtain ⟨kind, k1, k2⟩ := kind_of_reads _ (STMState.mem_all _) _ _ a1 (by rw [a2]; simp)
      obtain ⟨l, l1, l2⟩ := exists_end (e := e) hf kind C.src
      have hfr := (steps_fresh c1 (hk.fresh _) hd).1
      have hs := steps_same c1
      rw [← c5]
      refine ⟨kind, k1, l, steps_aligned c1 hj, ?_, l1, l2, ?_, ?_⟩
      · refine lead_of (hfr ?_) a1 k2
        rintro isTok' arg' ⟨op', b1, b2⟩
        rw [a1] at b1
        cases b1
        exact ⟨c4, a3⟩
      · rw [← hs.user]
        exact fun ss vs => token_defined (steps_inv c1 (hi.inv _)) a1 a3 k2 c4 c2 hkr l1
      · intro ss h1 h2
        rw [← hs.1]
        exact token_value (steps_inv c1 (hi.inv _)) a1 a3 k2 c4 c2 hkr l1 l2 h1 (by rw [hs.user]; exact h2)
    | succ i =>
      simp only [List.getElem?_cons_succ] at ho hc
      obtain ⟨A1, s1, s2⟩ := h1
      have hne : r0 ≠ .ErrorOccurred := he (r0, B0) (by simp)
      have hinv := steps_inv s1 (hi.inv _)
      obtain ⟨g1, g2⟩ := steps_fresh s1 (hk.fresh _) hd
      have hs := ((steps_same s1).trans (step_same s2)).trans (Same.clr c0)
      have := ih ((step_ret hinv s2).clr c0) ((step_idle s2).clr c0)
        (((step_fresh g1 g2 s2 (by simpa using hne)).2 (by simp)).clr c0) ((step_done s2).clr c0)
        (by rw [clr_src]; exact (step_shape s2).aligned (steps_aligned s1 hj)) i r B mask c ho hc hkr hm
        (fun x hx => he x (by simp [hx]))
      rw [hs.user, hs.1] at this
      exact this

end Mach

end TW

namespace TW

open Spec Mach

/-- The item is the value of the text of a token. -/
theorem delivered_text {e output : Enc} {em : Option (List (Nat × UChar))} {addr : Nat} {doc : List Byte} {o : Obs}
    (hb : ∀ b ∈ doc, b < 256) (h : Delivered e output em addr doc o) :
    ∃ kind p l, o.pos = some (p % 2 ^ 64) ∧ TokenAt e (strm doc) o.type kind p l ∧
      (∀ (ss : List Seg) (vs : List Ch), chars e (strm doc) p l = ss.flatMap Seg.text ++ vs →
        SegsOk (found em addr) 38 ss → ¬ Undefined (found em addr) vs) ∧
      ∀ ss : List Seg, ss.flatMap Seg.text = chars e (strm doc) p l →
        SegsOk (found em addr) (uasc e (strm doc) (offs e (strm doc) p l)) ss → o.item = value e output ss := by
  obtain ⟨n, calls, obs, s, i, mask, c, h, ho, hc, hm, hk, he⟩ := h
  obtain ⟨os, hr, rfl, -⟩ := session_ok (fun _ => oneSrc_wrap) (oneScanner_rel e output em addr doc (strm_lt _ hb)) h
  rw [List.getElem?_map] at ho
  cases hx : os[i]? with
  | none => rw [hx] at ho; cases ho
  | some x =>
    obtain ⟨r, B⟩ := x
    rw [hx] at ho
    cases ho
    obtain ⟨kind, k1, l, t1, t2, t3, t4, t5, t6⟩ := runs_text (strm_ends doc) hr (.new _ _ _) (.new _ _ _) trivial
      (by intro h; cases h) ⟨0, rfl⟩ i r B mask c hx hc hk hm (fun x hx hx' => he (Mach.obs true x)
        (by rw [← List.map_take]; exact List.mem_map_of_mem hx) hx')
    exact ⟨kind, B.tokenpos, l, rfl, ⟨k1, t1, t2, t3, t4⟩, t5, t6⟩

/-- A text without undefined names around a part that is a piece. -/
theorem value_split {e out : Enc} {user : Option UChar} {next : Byte} {us xs cs zs : List Ch} {item : List Byte}
    (hn : nameChar next = false) (h59 : next ≠ 59) (hd : ∀ (ss : List Seg) (vs : List Ch),
      us = ss.flatMap Seg.text ++ vs → SegsOk user 38 ss → ¬ Undefined user vs)
    (hv : ∀ ss : List Seg, ss.flatMap Seg.text = us → SegsOk user next ss → item = value e out ss)
    (hu : us = xs ++ cs ++ zs) (h38 : (cs.map Ch.asc).headD 0 = 38) (s : Seg) (bs : List Byte) (hs : s.text = cs)
    (hatom : s.atom e out = .bytes bs)
    (hok : ∀ next' ts, firstOf next' ts = (zs.map Ch.asc).headD next → SegsOk user next' ts →
      SegsOk user next' (s :: ts)) :
    ∃ ss ts : List Seg, ss.flatMap Seg.text = xs ∧ SegsOk user 38 ss ∧ ts.flatMap Seg.text = zs ∧
      SegsOk user next ts ∧ item = value e out ss ++ bs ++ value e out ts := by
  have hfirst : ∀ (n' : Byte) (ts : List Seg), firstOf n' (s :: ts) = 38 := fun n' ts => by
    unfold firstOf
    rw [List.flatMap_cons, hs]
    cases cs with
    | nil => cases h38
    | cons c cs => exact h38
  rcases exists_segs user 38 (by decide) (by decide) _ xs (Nat.le_refl _) with ⟨ss, s1, s2⟩ | ⟨ss, vs, s1, s2, s3⟩
  · rcases exists_segs user next hn h59 _ zs (Nat.le_refl _) with ⟨ts, t1, t2⟩ | ⟨ts, vs, t1, t2, t3⟩
    · refine ⟨ss, ts, s1, s2, t1, t2, ?_⟩
      rw [hv (ss ++ s :: ts) (by rw [List.flatMap_append, List.flatMap_cons, s1, t1, hs, hu, List.append_assoc])
        (SegsOk.append (by rw [hfirst]; exact s2) (hok _ _ (by unfold firstOf; rw [t1]) t2)), value_append hatom]
    · refine absurd t3 (hd (ss ++ s :: ts) vs ?_ (SegsOk.append (by rw [hfirst]; exact s2) (hok _ _ ?_ t2)))
      · rw [hu, t1, List.flatMap_append, List.flatMap_cons, s1, hs]
        simp
      · obtain ⟨-, ns, post, h, -⟩ := t3
        unfold firstOf
        rw [t1, List.map_append, h]
        cases (List.map Ch.asc (List.flatMap Seg.text ts)) <;> rfl
  · refine absurd (s3.append (ws := cs ++ zs)) (hd ss _ ?_ s2)
    rw [hu, s1]
    simp

end TW
