import Verif.Proofs.HdrParser
import Verif.Spec.HeaderText

/-!
# The texts read by the header parser
-/

namespace TW.HdrParser

open Spec Spec.Hdr

/-! ## Without the null bytes -/

/-- The bytes but the nulls. -/
def nn (bs : List Byte) : List Byte := bs.filter (· ≠ 0)

theorem nn_zero (bs : List Byte) : nn (0 :: bs) = nn bs := by unfold nn; rw [List.filter_cons_of_neg (by decide)]

theorem nn_char {b : Byte} (h : b ≠ 0) (bs : List Byte) : nn (b :: bs) = b :: nn bs := by
  unfold nn; rw [List.filter_cons_of_pos (by simpa using h)]

/-- A run that does not end with an exception does the same without the nulls. -/
theorem hrun_nn (bs : List Byte) : ∀ {s t : HdrParser}, Alike s t → (∀ e, (hrun s bs).1 ≠ .stop e) →
    (hrun s bs).1 = (crun t (nn bs)).1 ∧ Alike (hrun s bs).2 (crun t (nn bs)).2 := by
  induction bs with
  | nil => intro s t h _; exact ⟨rfl, h⟩
  | cons b bs ih =>
    intro s t h hs
    by_cases hb : b = 0
    · subst hb
      by_cases h4 : s.zeroCount + 1 = 4
      · rw [hrun_zero_throw h4] at hs
        exact absurd rfl (hs _)
      · rw [hrun_zero h4] at hs ⊢
        rw [nn_zero]
        exact ih h hs
    · obtain ⟨r, s', t', h1, h2, h3, -⟩ := consume_alike b (alike_count b h)
      rw [hrun_char _ hb h1] at hs ⊢
      rw [nn_char hb]
      unfold crun
      rw [h2]
      cases r with
      | some b => cases b <;> exact ⟨rfl, h3⟩
      | none => exact ih h3 hs

/-- Before the exception there are four nulls. -/
theorem hrun_stop (bs : List Byte) : ∀ {s t : HdrParser} {e : Stop}, Alike s t → s.zeroCount < 4 → (hrun s bs).1 = .stop e →
    ∃ pre rest, List.replicate s.zeroCount 0 ++ bs = pre ++ [0, 0, 0, 0] ++ rest ∧ (crun t (nn pre)).1 = .ok .more := by
  induction bs with
  | nil => intro s t e _ _ h; cases h
  | cons b bs ih =>
    intro s t e ha hz h
    by_cases hb : b = 0
    · subst hb
      by_cases h4 : s.zeroCount + 1 = 4
      · have : s.zeroCount = 3 := by omega
        rw [this]
        exact ⟨[], bs, rfl, rfl⟩
      · rw [hrun_zero h4] at h
        obtain ⟨pre, rest, h1, h2⟩ := ih (s := { s with idx := s.idx + 1, zeroCount := s.zeroCount + 1 }) ha (by simp only; omega) h
        refine ⟨pre, rest, ?_, h2⟩
        rw [← h1, List.replicate_succ']
        simp
    · obtain ⟨r, s', t', h1, h2, h3, h4⟩ := consume_alike b (alike_count b ha)
      rw [hrun_char _ hb h1] at h
      cases r with
      | some b => cases b <;> cases h
      | none =>
        have hz' : s'.zeroCount = 0 := h4
        obtain ⟨pre, rest, h5, h6⟩ := ih h3 (by omega) h
        rw [hz'] at h5
        refine ⟨List.replicate s.zeroCount 0 ++ b :: pre, rest, ?_, ?_⟩
        · rw [show bs = pre ++ [0, 0, 0, 0] ++ rest from h5]; simp
        · have : nn (List.replicate s.zeroCount 0 ++ b :: pre) = b :: nn pre := by
            unfold nn
            rw [List.filter_append, List.filter_replicate_of_neg (by decide), List.nil_append]
            exact nn_char hb pre
          rw [this]
          unfold crun
          rw [h2]
          exact h6

/-! ## From the texts to the parser -/

theorem nameChar_iff (c : Byte) : nameChar c = true ↔ Letter c := by
  unfold nameChar Letter
  by_cases h : c < 128
  · have : ∀ c : _root_.Fin 128, ((97 ≤ (c.val ||| 32) && (c.val ||| 32) ≤ 122) || c.val = 95) = true ↔
        65 ≤ c.val ∧ c.val ≤ 90 ∨ 97 ≤ c.val ∧ c.val ≤ 122 ∨ c.val = 95 := by decide +kernel
    exact this ⟨c, h⟩
  · have := Nat.left_le_or (n := c) (m := 32)
    constructor
    · intro h1
      simp only [Bool.or_eq_true, Bool.and_eq_true, decide_eq_true_eq] at h1
      omega
    · intro h1
      omega

/-- The state of the parser at a place. -/
def stateOf : Place → HdrState
  | .front => .Init
  | .opened => .ParseXmlOpen
  | .target _ => .ParseXmlHdr
  | .between => .FindAttributeName
  | .name _ => .ParseAttributeName
  | .assign _ => .FindAttributeAssign
  | .value _ => .FindAttributeValue
  | .quoted _ d _ => if d then .ParseAttributeValueDq else .ParseAttributeValueSq

/-- The item read at a place. -/
def itemOf : Place → List Byte
  | .target nm => nm
  | .name nm => nm
  | .quoted _ _ v => v
  | _ => []

/-- Names are collected. -/
theorem goes_letters {st : HdrState} (hst : st = .ParseXmlHdr ∨ st = .ParseAttributeName) (aty : HdrAttr) (en : List Byte)
    (x : List Byte) : ∀ (it : List Byte) (cc : Nat), (∀ c ∈ x, Letter c) → ∃ cc', Goes (at_ st aty it en cc) x (at_ st aty (it ++ x) en cc') := by
  induction x with
  | nil => intro it cc _; exact ⟨cc, by rw [List.append_nil]; exact Goes.nil _⟩
  | cons b x ih =>
    intro it cc hx
    have hb := hx b (List.mem_cons_self ..)
    obtain ⟨c1, hc⟩ := count_at b st aty it en cc
    obtain ⟨c2, h⟩ := ih (it ++ [b]) c1 fun c hc => hx c (List.mem_cons_of_mem _ hc)
    rw [show it ++ b :: x = (it ++ [b]) ++ x by simp]
    refine ⟨c2, Goes.trans (x := [b]) (Goes.char ?_) h⟩
    rw [hc]
    unfold consume
    rw [M.bind_ok (M.get_run _)]
    have hn := (nameChar_iff b).2 hb
    unfold Letter at hb
    rcases hst with rfl | rfl
    · simp only [switch, at_]
      rw [if_neg (by omega), if_pos hn]; rfl
    · simp only [switch, at_]
      rw [if_neg (by omega), if_pos hn]; rfl

theorem goes_opened {w0 w1 : List Byte} (h0 : Blank w0) (h1 : Blank w1) :
    ∃ cc, Goes new (w0 ++ [60] ++ w1) (at_ .ParseXmlOpen .Encoding [] [] cc) := by
  obtain ⟨c0, g0⟩ := goes_blank (st := .Init) (by simp) .Encoding [] [] w0 0 h0
  have g1 : Goes (at_ .Init .Encoding [] [] c0) [60] (at_ .ParseXmlOpen .Encoding [] [] (c0 + 1)) := fun bs => rfl
  obtain ⟨c2, g2⟩ := goes_blank (st := .ParseXmlOpen) (by simp) .Encoding [] [] w1 (c0 + 1) h1
  exact ⟨c2, (g0.trans g1).trans g2⟩

theorem goes_between {t en : List Byte} (h : Between t en) : ∃ aty cc, Goes new t (at_ .FindAttributeName aty [] en cc) := by
  induction h with
  | @start w0 w1 w2 h0 h1 h2 hw =>
    obtain ⟨c2, g2⟩ := goes_opened h0 h1
    have g3 : Goes (at_ .ParseXmlOpen .Encoding [] [] c2) [63, 120, 109, 108]
        (at_ .ParseXmlHdr .Encoding [120, 109, 108] [] (c2 + 4)) := fun bs => rfl
    cases w2 with
    | nil => exact absurd rfl hw
    | cons b w2 =>
      have hb := h2 b (List.mem_cons_self ..)
      obtain ⟨c4, hc⟩ := count_at b .ParseXmlHdr .Encoding [120, 109, 108] [] (c2 + 4)
      have g4 : Goes (at_ .ParseXmlHdr .Encoding [120, 109, 108] [] (c2 + 4)) [b]
          (at_ .FindAttributeName .Encoding [] [] c4) := by
        refine Goes.char ?_
        rw [hc]
        unfold consume
        rw [M.bind_ok (M.get_run _)]
        simp only [switch, at_]
        rw [if_pos (.inl hb.2), if_neg (by omega)]
        rfl
      obtain ⟨c5, g5⟩ := goes_blank (st := .FindAttributeName) (by simp) .Encoding [] [] w2 c4
        fun c hc => h2 c (List.mem_cons_of_mem _ hc)
      refine ⟨.Encoding, c5, ?_⟩
      have := ((g2.trans g3).trans g4).trans g5
      simpa using this
  | @attr t en a _ ha ih =>
    obtain ⟨aty, cc, g⟩ := ih
    obtain ⟨aty', cc', g'⟩ := goes_attr a ha aty en cc
    exact ⟨aty', cc', g.trans g'⟩

/-- The type of the attribute is known behind its name. -/
def TypeOk : Place → HdrAttr → Prop
  | .assign a, aty => aty = typeOf a
  | .value a, aty => aty = typeOf a
  | .quoted a _ _, aty => aty = typeOf a
  | _, _ => True

theorem goes_at {t en : List Byte} {p : Place} (h : At t p en) :
    ∃ aty cc, TypeOk p aty ∧ Goes new t (at_ (stateOf p) aty (itemOf p) en cc) := by
  cases h with
  | front hw =>
    obtain ⟨c0, g0⟩ := goes_blank (st := .Init) (by simp) .Encoding [] [] t 0 hw
    exact ⟨_, c0, trivial, g0⟩
  | opened h0 h1 =>
    obtain ⟨c2, g2⟩ := goes_opened h0 h1
    exact ⟨_, c2, trivial, g2⟩
  | @target w0 w1 nm h0 h1 hn =>
    obtain ⟨c2, g2⟩ := goes_opened h0 h1
    have g3 : Goes (at_ .ParseXmlOpen .Encoding [] [] c2) [63] (at_ .ParseXmlHdr .Encoding [] [] (c2 + 1)) := fun bs => rfl
    obtain ⟨c4, g4⟩ := goes_letters (st := .ParseXmlHdr) (by simp) .Encoding [] nm [] (c2 + 1) hn
    exact ⟨_, c4, trivial, (g2.trans g3).trans g4⟩
  | between hb =>
    obtain ⟨aty, cc, g⟩ := goes_between hb
    exact ⟨aty, cc, trivial, g⟩
  | @name t en nm hb hn hl =>
    obtain ⟨aty, cc, g⟩ := goes_between hb
    cases nm with
    | nil => exact absurd rfl hn
    | cons b nm =>
      have hb := hl b (List.mem_cons_self ..)
      obtain ⟨c1, hc⟩ := count_at b .FindAttributeName aty [] en cc
      have g1 : Goes (at_ .FindAttributeName aty [] en cc) [b] (at_ .ParseAttributeName aty [b] en c1) := by
        refine Goes.char ?_
        rw [hc]
        unfold consume
        rw [M.bind_ok (M.get_run _)]
        have hn := (nameChar_iff b).2 hb
        unfold Letter at hb
        simp only [switch, at_]
        rw [if_neg (by omega), if_neg (by omega), if_neg (by omega), if_pos hn]; rfl
      obtain ⟨c4, g4⟩ := goes_letters (st := .ParseAttributeName) (by simp) aty en nm [b] c1 fun c hc => hl c (List.mem_cons_of_mem _ hc)
      refine ⟨aty, c4, trivial, ?_⟩
      have := (g.trans g1).trans g4
      simpa [stateOf, itemOf] using this
  | @assign t en w a hb hw hne =>
    obtain ⟨aty, cc, g⟩ := goes_between hb
    obtain ⟨c1, g1⟩ := goes_name a aty en cc
    cases w with
    | nil => exact absurd rfl hne
    | cons b w =>
      have hb := hw b (List.mem_cons_self ..)
      obtain ⟨c2, g2⟩ := goes_endName a aty en c1 b (.inl hb.2)
      rw [if_neg (by omega)] at g2
      obtain ⟨c3, g3⟩ := goes_blank (st := .FindAttributeAssign) (by simp) (typeOf a) [] en w c2
        fun c hc => hw c (List.mem_cons_of_mem _ hc)
      refine ⟨_, c3, rfl, ?_⟩
      have := ((g.trans g1).trans g2).trans g3
      simpa [stateOf, itemOf] using this
  | @value t en w1 w2 a hb h1 h2 =>
    obtain ⟨aty, cc, g⟩ := goes_between hb
    obtain ⟨c1, g1⟩ := goes_name a aty en cc
    obtain ⟨c2, g2⟩ := goes_assign a aty en c1 w1 w2 h1 h2
    refine ⟨_, c2, rfl, ?_⟩
    have := (g.trans g1).trans g2
    simpa [stateOf, itemOf] using this
  | @quoted t en w1 w2 v a d hb h1 h2 hv =>
    obtain ⟨aty, cc, g⟩ := goes_between hb
    obtain ⟨c1, g1⟩ := goes_name a aty en cc
    obtain ⟨c2, g2⟩ := goes_assign a aty en c1 w1 w2 h1 h2
    have g3 : Goes (at_ .FindAttributeValue (typeOf a) [] en c2) [if d then 34 else 39]
        (at_ (if d then .ParseAttributeValueDq else .ParseAttributeValueSq) (typeOf a) [] en (c2 + 1)) := by
      cases d <;> exact fun bs => rfl
    obtain ⟨c4, g4⟩ := goes_value d (typeOf a) en v [] (c2 + 1) fun c hc => (hv c hc).2
    refine ⟨_, c4, rfl, ?_⟩
    have := (((g.trans g1).trans g2).trans g3).trans g4
    simpa [stateOf, itemOf] using this

/-- The end of the header. -/
theorem crun_ends {p : Place} {c : Byte} (h : Ends p c) (aty : HdrAttr) (en : List Byte) (cc : Nat) (rest : List Byte) :
    ∃ s, crun (at_ (stateOf p) aty (itemOf p) en cc) (c :: rest) = (.ok .done, s) ∧ s.encoding = en ∧ s.lasterror = "" := by
  obtain ⟨c1, hc⟩ := count_at c (stateOf p) aty (itemOf p) en cc
  unfold crun
  rw [hc]
  unfold consume
  rw [M.bind_ok (M.get_run _)]
  cases h with
  | tag h =>
    have hn := (nameChar_iff c).2 h
    unfold Letter at h
    simp only [switch, at_, stateOf]
    rw [if_neg (by omega), if_neg (by omega), if_pos hn]
    exact ⟨_, rfl, rfl, rfl⟩
  | target => exact ⟨_, rfl, rfl, rfl⟩
  | between => exact ⟨_, rfl, rfl, rfl⟩

/-- A wrong character. -/
theorem crun_wrong {p : Place} {c : Byte} {m : String} (h : Wrong p c m) (aty : HdrAttr) (en : List Byte) (cc : Nat) (rest : List Byte) :
    ∃ s, crun (at_ (stateOf p) aty (itemOf p) en cc) (c :: rest) = (.ok .failed, s) ∧ s.encoding = en ∧ s.lasterror = m := by
  obtain ⟨c1, hc⟩ := count_at c (stateOf p) aty (itemOf p) en cc
  unfold crun
  rw [hc]
  unfold consume
  rw [M.bind_ok (M.get_run _)]
  cases h with
  | front h1 h2 =>
    simp only [switch, at_, stateOf]
    rw [if_neg (by omega), if_neg (by omega)]
    exact ⟨_, rfl, rfl, rfl⟩
  | opened h1 h2 h3 =>
    simp only [switch, at_, stateOf]
    rw [if_neg (by omega), if_neg (by omega), if_neg (fun h => h3 ((nameChar_iff c).1 h))]
    exact ⟨_, rfl, rfl, rfl⟩
  | target h1 h2 =>
    rw [show switch c (at_ (stateOf (.target _)) aty (itemOf (.target _)) en c1) = fail "expected '<?xml' as xml header start" from
      (if_pos h2).trans (if_pos h1)]
    exact ⟨_, rfl, rfl, rfl⟩
  | targetClose => exact ⟨_, rfl, rfl, rfl⟩
  | targetChar h1 h2 h3 h4 =>
    simp only [switch, at_, stateOf, itemOf]
    rw [if_neg (by omega), if_neg (fun h => h4 ((nameChar_iff c).1 h)), if_neg h3]
    exact ⟨_, rfl, rfl, rfl⟩
  | betweenClose => exact ⟨_, rfl, rfl, rfl⟩
  | betweenChar h1 h2 h3 h4 =>
    simp only [switch, at_, stateOf, itemOf]
    rw [if_neg (by omega), if_neg h2, if_neg h3, if_neg (fun h => h4 ((nameChar_iff c).1 h))]
    exact ⟨_, rfl, rfl, rfl⟩
  | name h1 h2 =>
    rw [show switch c (at_ (stateOf (.name _)) aty (itemOf (.name _)) en c1) = fail "unknown xml header attribute name" from
      (if_pos h2).trans ((if_neg (h1 .encoding)).trans ((if_neg (h1 .version)).trans (if_neg (h1 .standalone))))]
    exact ⟨_, rfl, rfl, rfl⟩
  | nameChar h1 h2 h3 =>
    simp only [switch, at_, stateOf, itemOf]
    rw [if_neg (by omega), if_neg (fun h => h3 ((nameChar_iff c).1 h))]
    exact ⟨_, rfl, rfl, rfl⟩
  | assign h1 h2 =>
    simp only [switch, at_, stateOf, itemOf]
    rw [if_neg (by omega), if_neg (by omega)]
    exact ⟨_, rfl, rfl, rfl⟩
  | value h1 h2 h3 =>
    simp only [switch, at_, stateOf, itemOf]
    rw [if_neg (by omega), if_neg (by omega), if_neg (by omega)]
    exact ⟨_, rfl, rfl, rfl⟩

/-- How a verdict is told. -/
def told : Option (Option String) → Outcome × String
  | none => (.more, "")
  | some none => (.done, "")
  | some (some m) => (.failed, m)

theorem crun_verdict {t en : List Byte} {v : Option (Option String)} (h : Verdict t v en) :
    (crun new t).1 = .ok (told v).1 ∧ (crun new t).2.encoding = en ∧ (crun new t).2.lasterror = (told v).2 := by
  cases h with
  | more h =>
    obtain ⟨aty, cc, -, g⟩ := goes_at h
    rw [show t = t ++ [] by simp, g]
    exact ⟨rfl, rfl, rfl⟩
  | done h h' =>
    obtain ⟨aty, cc, -, g⟩ := goes_at h
    rw [g]
    obtain ⟨s, h1, h2, h3⟩ := crun_ends h' aty en cc _
    rw [h1]
    exact ⟨rfl, h2, h3⟩
  | failed h _ h' =>
    obtain ⟨aty, cc, -, g⟩ := goes_at h
    rw [g]
    obtain ⟨s, h1, h2, h3⟩ := crun_wrong h' aty en cc _
    rw [h1]
    exact ⟨rfl, h2, h3⟩

/-! ## Every text has a verdict -/

theorem Blank.snoc {w : List Byte} (h : Blank w) {c : Byte} (h1 : c ≠ 0) (h2 : c ≤ 32) : Blank (w ++ [c]) := by
  intro b hb
  rcases List.mem_append.1 hb with hb | hb
  · exact h b hb
  · rw [List.mem_singleton] at hb; subst hb; omega

theorem letters_snoc {w : List Byte} (h : ∀ c ∈ w, Letter c) {c : Byte} (h1 : Letter c) : ∀ d ∈ w ++ [c], Letter d := by
  intro b hb
  rcases List.mem_append.1 hb with hb | hb
  · exact h b hb
  · rw [List.mem_singleton] at hb; subst hb; exact h1

theorem between_snoc {t en : List Byte} (h : Between t en) {c : Byte} (h1 : c ≠ 0) (h2 : c ≤ 32) : Between (t ++ [c]) en := by
  cases h with
  | @start w0 w1 w2 a b d hw =>
    rw [show w0 ++ [60] ++ w1 ++ [63, 120, 109, 108] ++ w2 ++ [c] = w0 ++ [60] ++ w1 ++ [63, 120, 109, 108] ++ (w2 ++ [c]) by simp]
    exact .start a b (Blank.snoc d h1 h2) (by simp)
  | @attr t en a hb ha =>
    obtain ⟨nm, w1, w2, d, v, w3⟩ := a
    have := Between.attr (a := ⟨nm, w1, w2, d, v, w3 ++ [c]⟩) hb ⟨ha.ws1, ha.ws2, Blank.snoc ha.ws3 h1 h2, ha.value⟩
    rw [show t ++ DeclAttr.text ⟨nm, w1, w2, d, v, w3⟩ ++ [c] = t ++ DeclAttr.text ⟨nm, w1, w2, d, v, w3 ++ [c]⟩ by
      simp [DeclAttr.text, DeclAttr.quote]]
    exact this

instance (c : Byte) : Decidable (Letter c) := by unfold Letter; infer_instance

theorem at_snoc {t en : List Byte} {p : Place} (h : At t p en) {c : Byte} (hc : c ≠ 0) :
    Ends p c ∨ (∃ m, Wrong p c m) ∨ ∃ p' en', At (t ++ [c]) p' en' := by
  cases h with
  | front hw =>
    by_cases h1 : c = 60
    · subst h1
      exact .inr (.inr ⟨_, _, by simpa using At.opened (w1 := []) hw nofun⟩)
    · by_cases h2 : c ≤ 32
      · exact .inr (.inr ⟨_, _, .front (Blank.snoc hw hc h2)⟩)
      · exact .inr (.inl ⟨_, .front (by omega) h1⟩)
  | @opened w0 w1 h0 hw =>
    by_cases h1 : c = 63
    · subst h1
      exact .inr (.inr ⟨_, _, by simpa using At.target (nm := []) h0 hw nofun⟩)
    · by_cases h2 : c ≤ 32
      · exact .inr (.inr ⟨_, _, by simpa using At.opened h0 (Blank.snoc hw hc h2)⟩)
      · by_cases h3 : Letter c
        · exact .inl (.tag h3)
        · exact .inr (.inl ⟨_, .opened (by omega) h1 h3⟩)
  | @target w0 w1 nm h0 h1 hl =>
    by_cases h2 : c ≤ 32 ∨ c = 63
    · by_cases h3 : nm = [120, 109, 108]
      · subst h3
        rcases h2 with h2 | rfl
        · refine .inr (.inr ⟨_, _, .between (en := []) ?_⟩)
          have := Between.start h0 h1 (w2 := [c]) (by intro b hb; rw [List.mem_singleton] at hb; subst hb; omega) (by simp)
          simpa using this
        · exact .inl .target
      · exact .inr (.inl ⟨_, .target h3 h2⟩)
    · by_cases h3 : Letter c
      · exact .inr (.inr ⟨_, _, by simpa using At.target h0 h1 (letters_snoc hl h3)⟩)
      · by_cases h4 : c = 62
        · subst h4; exact .inr (.inl ⟨_, .targetClose⟩)
        · exact .inr (.inl ⟨_, .targetChar (by omega) (by omega) h4 h3⟩)
  | between hb =>
    by_cases h1 : c ≤ 32
    · exact .inr (.inr ⟨_, _, .between (between_snoc hb hc h1)⟩)
    · by_cases h2 : c = 62
      · subst h2; exact .inr (.inl ⟨_, .betweenClose⟩)
      · by_cases h3 : c = 63
        · subst h3; exact .inl .between
        · by_cases h4 : Letter c
          · exact .inr (.inr ⟨_, _, .name hb (nm := [c]) (by simp) (by intro b hb; rw [List.mem_singleton] at hb; subst hb; exact h4)⟩)
          · exact .inr (.inl ⟨_, .betweenChar (by omega) h2 h3 h4⟩)
  | @name t en nm hb hn hl =>
    by_cases h1 : c ≤ 32 ∨ c = 61
    · by_cases h2 : ∀ a : DeclName, nm ≠ a.text
      · exact .inr (.inl ⟨_, .name h2 h1⟩)
      · have : ∃ a : DeclName, nm = a.text := Classical.byContradiction fun h => h2 fun a ha => h ⟨a, ha⟩
        obtain ⟨a, rfl⟩ := this
        by_cases h3 : c = 61
        · subst h3
          exact .inr (.inr ⟨_, _, by simpa using At.value (a := a) (w1 := []) (w2 := []) hb nofun nofun⟩)
        · refine .inr (.inr ⟨_, _, At.assign (a := a) (w := [c]) hb ?_ (by simp)⟩)
          intro b hb; rw [List.mem_singleton] at hb; subst hb; omega
    · by_cases h2 : Letter c
      · exact .inr (.inr ⟨_, _, by simpa using At.name hb (by simp) (letters_snoc hl h2)⟩)
      · exact .inr (.inl ⟨_, .nameChar (by omega) (by omega) h2⟩)
  | @assign t en w a hb hw hne =>
    by_cases h1 : c = 61
    · subst h1
      exact .inr (.inr ⟨_, _, by simpa using At.value (a := a) (w1 := w) (w2 := []) hb hw nofun⟩)
    · by_cases h2 : c ≤ 32
      · exact .inr (.inr ⟨_, _, by simpa using At.assign (a := a) hb (Blank.snoc hw hc h2) (by simp)⟩)
      · exact .inr (.inl ⟨_, .assign (by omega) h1⟩)
  | @value t en w1 w2 a hb hw1 hw2 =>
    by_cases h1 : c = 34
    · subst h1
      exact .inr (.inr ⟨_, _, by simpa using At.quoted (a := a) (double := true) (v := []) hb hw1 hw2 nofun⟩)
    · by_cases h2 : c = 39
      · subst h2
        exact .inr (.inr ⟨_, _, by simpa using At.quoted (a := a) (double := false) (v := []) hb hw1 hw2 nofun⟩)
      · by_cases h3 : c ≤ 32
        · exact .inr (.inr ⟨_, _, by simpa using At.value (a := a) hb hw1 (Blank.snoc hw2 hc h3)⟩)
        · exact .inr (.inl ⟨_, .value (by omega) h1 h2⟩)
  | @quoted t en w1 w2 v a d hb hw1 hw2 hv =>
    by_cases h1 : c = if d then 34 else 39
    · subst h1
      refine .inr (.inr ⟨_, _, .between (en := if a = .encoding then v else en) ?_⟩)
      have := Between.attr (a := ⟨a, w1, w2, d, v, []⟩) hb ⟨hw1, hw2, nofun, hv⟩
      simpa [DeclAttr.text, DeclAttr.quote] using this
    · have hv' : ∀ b ∈ v ++ [c], b ≠ 0 ∧ b ≠ if d then 34 else 39 := fun b hb => by
        rcases List.mem_append.1 hb with hb | hb
        · exact hv b hb
        · rw [List.mem_singleton] at hb; subst hb; exact ⟨hc, h1⟩
      exact .inr (.inr ⟨_, _, by simpa using At.quoted (a := a) (double := d) (v := v ++ [c]) hb hw1 hw2 hv'⟩)

theorem verdict_total (rest : List Byte) : ∀ {t en : List Byte} {p : Place}, At t p en → (∀ c ∈ rest, c ≠ 0) →
    ∃ v en', Verdict (t ++ rest) v en' := by
  induction rest with
  | nil => intro t en p h _; exact ⟨_, _, by rw [List.append_nil]; exact .more h⟩
  | cons c rest ih =>
    intro t en p h hr
    have hc := hr c (List.mem_cons_self ..)
    rcases at_snoc h hc with h1 | ⟨m, h1⟩ | ⟨p', en', h1⟩
    · exact ⟨_, _, .done h h1⟩
    · exact ⟨_, _, .failed h hc h1⟩
    · obtain ⟨v, e, h2⟩ := ih h1 fun c hc => hr c (List.mem_cons_of_mem _ hc)
      exact ⟨v, e, by simpa using h2⟩

theorem verdict_nn (bs : List Byte) : ∃ v en, Verdict (nn bs) v en := by
  have := verdict_total (nn bs) (t := []) (.front nofun) fun c hc => by simpa [nn] using (List.mem_filter.1 hc).2
  simpa using this

end TW.HdrParser
