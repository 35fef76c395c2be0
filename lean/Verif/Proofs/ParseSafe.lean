import Verif.Proofs.PathNames
import Verif.Proofs.PathSafe
import Verif.Spec.Whole

/-!
# Reading names and path expressions inside of their memory
-/

namespace TW

open Spec Spec.Path

/-! ## Names -/

theorem Whole.append {e : Enc} {as bs : List Byte} (h : Whole e as) (k : Whole e bs) : Whole e (as ++ bs) := by
  induction h with
  | nil => exact k
  | cons b cs rest h _ ih =>
    rw [List.append_assoc]
    exact .cons b cs _ h ih

/-- Bytes that are only whole characters. -/
def WholeName (e : Enc) (bs : List Byte) : Prop := Whole e bs ∧ ∀ b ∈ bs, b < 256

theorem WholeName.nil {e : Enc} : WholeName e [] := ⟨.nil, fun _ h => nomatch h⟩

theorem WholeName.append {e : Enc} {as bs : List Byte} (h : WholeName e as) (k : WholeName e bs) : WholeName e (as ++ bs) :=
  ⟨Whole.append h.1 k.1, fun b hb => (List.mem_append.1 hb).elim (h.2 b) (k.2 b)⟩

theorem whole_latin {p : Nat} : ∀ bs : List Byte, Whole (.isolatin p) bs
  | [] => .nil
  | b :: bs => .cons b [] bs rfl (whole_latin bs)

theorem utf8Tail_length (c : UChar) : ∀ k, (Enc.utf8Tail c k).length = k
  | 0 => rfl
  | k + 1 => by rw [Enc.utf8Tail, List.length_cons, utf8Tail_length c k]

theorem utf8Tail_lt (c : UChar) : ∀ k, ∀ b ∈ Enc.utf8Tail c k, b < 256
  | 0, _, h => nomatch h
  | k + 1, b, h => by
    rw [Enc.utf8Tail] at h
    rcases List.mem_cons.1 h with rfl | h
    · have h1 : (c >>> (6 * k)) &&& 0x3F < 2 ^ 8 := Nat.lt_of_le_of_lt Nat.and_le_right (by decide)
      exact Nat.or_lt_two_pow h1 (by decide)
    · exact utf8Tail_lt c k b h

/-- What is printed for a character are whole characters. -/
theorem print_name {e : Enc} (he : ByteSet e) {c : UChar} (h32 : c < 2 ^ 32) : WholeName e (e.print c) := by
  rcases he with rfl | ⟨p, rfl, hp⟩
  · by_cases hd : c ≤ 0x7FFFFFFF
    · have hlt := print_lt .utf8 (fun p h => nomatch h) c h32 hd
      refine ⟨?_, hlt⟩
      obtain ⟨d1, -⟩ := direct_dec .utf8 (fun p h => nomatch h) c h32 hd (strm (Enc.print .utf8 c)) 0 (At_strm _)
      cases hx : Enc.print .utf8 c with
      | nil =>
        rw [hx] at d1
        simp [ulen, strm, utf8Len] at d1
      | cons b bs =>
        rw [hx] at d1
        have := Whole.cons (e := .utf8) b bs [] (by
          show bs.length + 1 = utf8Len b
          rw [← List.length_cons (a := b), ← d1]
          rfl) .nil
        rwa [List.append_nil] at this
    · have h5 : Enc.utf8Pp c = 5 := by
        unfold Enc.utf8Pp
        rw [if_neg (by simp [Nat.shiftLeft_eq]; omega), if_neg (by simp [Nat.shiftLeft_eq]; omega), if_neg (by simp [Nat.shiftLeft_eq]; omega),
          if_neg (by simp [Nat.shiftLeft_eq]; omega)]
      have hs : c >>> 30 = 2 ∨ c >>> 30 = 3 := by
        rw [Nat.shiftRight_eq_div_pow]
        omega
      have hx : ∃ b, (b = 252 ∨ b = 253) ∧ Enc.print .utf8 c = b :: Enc.utf8Tail c 5 := by
        show ∃ b, _ ∧ Enc.utf8Print c = _
        unfold Enc.utf8Print
        rw [if_neg (by omega)]
        simp only [h5]
        rcases hs with hs | hs
        · exact ⟨252, .inl rfl, by rw [show 5 * 6 = 30 from rfl, hs]; rfl⟩
        · exact ⟨253, .inr rfl, by rw [show 5 * 6 = 30 from rfl, hs]; rfl⟩
      obtain ⟨b, hb, hx⟩ := hx
      rw [hx]
      refine ⟨?_, fun x hx => ?_⟩
      · have := Whole.cons (e := .utf8) b (Enc.utf8Tail c 5) [] (by
          rw [utf8Tail_length]
          rcases hb with rfl | rfl <;> rfl) .nil
        rwa [List.append_nil] at this
      · rcases List.mem_cons.1 hx with rfl | hx
        · omega
        · exact utf8Tail_lt c 5 x hx
  · refine ⟨whole_latin _, ?_⟩
    by_cases hd : Direct (.isolatin p) c
    · exact print_lt _ (fun q h => by cases h; exact hp) c h32 hd
    · intro b hb
      simp only [Enc.print, Enc.isolatinPrint] at hb
      split at hb
      · rw [encodeStr_eq c h32] at hb
        simp only [entityText, hexDigitsRev, List.mem_append, List.mem_cons, List.mem_reverse, List.not_mem_nil, or_false] at hb
        rcases hb with (h | h) | h
        · omega
        · have := hexRev_range 32 c b h
          omega
        · omega
      · rename_i hi
        exact (hd (by simp [Direct, Enc.isolatinPrint, hi])).elim

namespace Path

theorem name_end {e : Enc} (he : ByteSet e) (name : List Byte) : ulen e (strm (name ++ [0])) name.length = 1 ∧ uasc e (strm (name ++ [0])) name.length = 0 := by
  have hz : strm (name ++ [0]) name.length = 0 := by
    unfold strm
    rw [List.getD_eq_getElem?_getD]
    simp
  rcases he with rfl | ⟨p, rfl, -⟩ <;> simp [ulen, uasc, hz, utf8Len]

theorem name_len {e : Enc} (he : ByteSet e) {pre bs rest : List Byte} {b : Byte} (h : bs.length + 1 = leadLen e b) :
    ulen e (strm (pre ++ (b :: bs ++ rest) ++ [0])) pre.length = bs.length + 1 := by
  have hz : strm (pre ++ (b :: bs ++ rest) ++ [0]) pre.length = b := by
    unfold strm
    rw [List.getD_eq_getElem?_getD]
    simp
  rw [h]
  rcases he with rfl | ⟨p, rfl, -⟩
  · simp only [ulen, hz]
    rfl
  · rfl

/-- Reading a name of whole characters does not leave the memory of it. -/
theorem staticToken_whole {e : Enc} (he : ByteSet e) (name : List Byte) (hb : ∀ b ∈ name ++ [0], b < 256) {rest : List Byte} (h : Whole e rest) :
    ∀ pre : List Byte, name = pre ++ rest → ∃ v, ∀ n, rest.length < n → ∀ t ld, TRel (ptrSource (name ++ [0]) hb) e t ⟨pre.length, ld⟩ →
      ∃ t', staticToken e isTagC n t = (.ok v, t') := by
  induction h with
  | nil =>
    intro pre hp
    rw [List.append_nil] at hp
    subst hp
    obtain ⟨h1, h2⟩ := name_end he name
    refine ⟨[], fun n hn t ld ht => ?_⟩
    obtain ⟨n, rfl⟩ : ∃ m, n = m + 1 := ⟨n - 1, by simp at hn; omega⟩
    obtain ⟨t', k1, k2⟩ := ht.control_ok (by
      rw [h1]
      intro j _ j2
      have : j < (name ++ [0]).length := by simp; omega
      exact ⟨this, this⟩)
    refine ⟨t', ?_⟩
    unfold staticToken
    rw [M.bind_ok k1, h2, if_neg (by decide), if_neg (by decide)]
    rfl
  | cons b bs rest h _ ih =>
    intro pre hp
    subst hp
    have hl := name_len he (pre := pre) (rest := rest) h
    obtain ⟨v, hv⟩ := ih (pre ++ b :: bs) (by simp)
    have av : Avail (ptrSource (pre ++ (b :: bs ++ rest) ++ [0]) hb) pre.length (ulen e (strm (pre ++ (b :: bs ++ rest) ++ [0])) pre.length) := by
      rw [hl]
      intro j _ j2
      have : j < (pre ++ (b :: bs ++ rest) ++ [0]).length := by simp; omega
      exact ⟨this, this⟩
    have hk : pre.length + (bs.length + 1) = (pre ++ b :: bs).length := by simp
    by_cases c1 : isTagC (controlCharMap (uasc e (strm (pre ++ (b :: bs ++ rest) ++ [0])) pre.length)) = true
    · refine ⟨e.print (uval e (strm (pre ++ (b :: bs ++ rest) ++ [0])) pre.length) ++ v, fun n hn t ld ht => ?_⟩
      obtain ⟨n, rfl⟩ : ∃ m, n = m + 1 := ⟨n - 1, by simp at hn; omega⟩
      obtain ⟨t1, k1, k2⟩ := ht.control_ok av
      obtain ⟨t2, k3, k4⟩ := k2.chr_ok av
      obtain ⟨t3, k5, k6⟩ := k4.skip_ok av
      rw [hl, hk] at k6
      obtain ⟨t4, k7⟩ := hv n (by simp at hn; omega) t3 _ k6
      refine ⟨t4, ?_⟩
      unfold staticToken
      rw [M.bind_ok k1, if_pos c1, M.bind_ok k3, M.bind_ok k5, M.bind_ok k7]
      rfl
    · by_cases c2 : controlCharMap (uasc e (strm (pre ++ (b :: bs ++ rest) ++ [0])) pre.length) = .Amp
      · refine ⟨e.print 0 ++ v, fun n hn t ld ht => ?_⟩
        obtain ⟨n, rfl⟩ : ∃ m, n = m + 1 := ⟨n - 1, by simp at hn; omega⟩
        obtain ⟨t1, k1, k2⟩ := ht.control_ok av
        obtain ⟨t2, k3, k4⟩ := k2.ascii_ok av
        obtain ⟨t3, k5, k6⟩ := k4.skip_ok av
        rw [hl, hk] at k6
        obtain ⟨t4, k7⟩ := hv n (by simp at hn; omega) t3 _ k6
        refine ⟨t4, ?_⟩
        have hne : (if uasc e (strm (pre ++ (b :: bs ++ rest) ++ [0])) pre.length < 128 then uasc e (strm (pre ++ (b :: bs ++ rest) ++ [0])) pre.length else 0) ≠ 35 := by
          intro hx
          generalize uasc e (strm (pre ++ (b :: bs ++ rest) ++ [0])) pre.length = x at c2 hx
          split at hx
          · subst hx
            revert c2
            decide
          · cases hx
        have kn : numericEntity (n + 1) t1 = (.ok 0, t2) := by
          unfold numericEntity
          rw [M.bind_ok k3, if_pos hne]
          rfl
        unfold staticToken
        rw [M.bind_ok k1, if_neg c1, if_pos c2, M.bind_ok kn, M.bind_ok k5, M.bind_ok k7]
        rfl
      · refine ⟨[], fun n hn t ld ht => ?_⟩
        obtain ⟨n, rfl⟩ : ∃ m, n = m + 1 := ⟨n - 1, by simp at hn; omega⟩
        obtain ⟨t1, k1, k2⟩ := ht.control_ok av
        refine ⟨t1, ?_⟩
        unfold staticToken
        rw [M.bind_ok k1, if_neg c1, if_neg c2]
        rfl

theorem nameKey_whole {e : Enc} (he : ByteSet e) {name : List Byte} (h : WholeName e name) : ∃ key, ∀ n, name.length < n → nameKey e n name = .ok key := by
  have hb : ∀ b ∈ name ++ [0], b < 256 := by
    intro b hb
    rcases List.mem_append.1 hb with hb | hb
    · exact h.2 b hb
    · rw [List.mem_singleton.1 hb]; omega
  obtain ⟨k1, k2⟩ := ptrSource_start (name ++ [0]) hb
  have hR := TRel.init (ptrSource (name ++ [0]) hb) e _ k2 k1
  obtain ⟨v, hv⟩ := staticToken_whole he name hb h.1 [] rfl
  refine ⟨v.take 1024, fun n hn => ?_⟩
  obtain ⟨t', h1⟩ := hv n hn _ _ hR
  unfold nameKey
  rw [h1]

/-- The names of a call have settled keys. -/
theorem names_settle {e : Enc} (he : ByteSet e) : ∀ {l : List (List Byte)}, (∀ x ∈ l, WholeName e x) → ∃ N, ∀ n, N ≤ n → ∀ x ∈ l, nameKey e n x = nameKey e N x ∧ ∃ k, nameKey e N x = .ok k
  | [], _ => ⟨0, fun _ _ x hx => nomatch hx⟩
  | y :: l, h => by
    obtain ⟨N, hN⟩ := names_settle he (fun x hx => h x (List.mem_cons_of_mem _ hx))
    obtain ⟨k, hk⟩ := nameKey_whole he (h y (List.mem_cons_self ..))
    refine ⟨max N (y.length + 1), fun n hn x hx => ?_⟩
    rcases List.mem_cons.1 hx with rfl | hx
    · rw [hk n (by omega), hk _ (by omega)]
      exact ⟨rfl, k, rfl⟩
    · obtain ⟨h1, k, h2⟩ := hN n (by omega) x hx
      have h3 := (hN (max N (y.length + 1)) (by omega) x hx).1
      rw [h1, h3]
      exact ⟨rfl, k, h2⟩

theorem call_same {e : Enc} {n m : Nat} {c : PElem.Call} (h : ∀ x ∈ c.names, nameKey e n x = nameKey e m x) (p : PElem) : PElem.call e n p c = PElem.call e m p c := by
  have sel : ∀ (op : Op) (name : Option (List Byte)), (∀ x ∈ name.toList, nameKey e n x = nameKey e m x) → ∀ p, PElem.doSelect e n op name p = PElem.doSelect e m op name p := by
    intro op name hn p
    cases name with
    | none => rfl
    | some nm => simp only [PElem.doSelect, hn nm (List.mem_singleton.2 rfl)]
  cases c with
  | tag name => exact sel _ name h p
  | «attribute» name =>
    simp only [PElem.call]
    rw [sel _ name h p]
  | ifAttribute name value =>
    show (do
      let p ← PElem.doSelect e n .Attribute name p
      PElem.doSelect e n .ThisAttributeValue value p) = (do
      let p ← PElem.doSelect e m .Attribute name p
      PElem.doSelect e m .ThisAttributeValue value p)
    rw [sel _ name (fun x hx => h x (List.mem_append_left _ hx)) p]
    have : PElem.doSelect e n .ThisAttributeValue value = PElem.doSelect e m .ThisAttributeValue value :=
      funext (sel _ value (fun x hx => h x (List.mem_append_right _ hx)))
    simp only [this]
  | _ => rfl

theorem forEach_same {e : Enc} {n m : Nat} {c : PElem.Call} (h : ∀ x ∈ c.names, nameKey e n x = nameKey e m x) : ∀ ps, forEach e n c ps = forEach e m c ps
  | [] => rfl
  | p :: ps => by rw [forEach, forEach, call_same h p, forEach_same h ps]

theorem forAlt_same {e : Enc} {n m : Nat} {mk : Option (List Byte) → PElem.Call} (hm : ∀ x, (mk (some x)).names = [x]) (ps : List PElem) :
    ∀ alt : List (List Byte), (∀ x ∈ alt, nameKey e n x = nameKey e m x) → forAlt e n mk ps alt = forAlt e m mk ps alt
  | [], _ => rfl
  | a :: alt, h => by
    rw [forAlt, forAlt, forAlt_same hm ps alt (fun x hx => h x (List.mem_cons_of_mem _ hx)),
      forEach_same (fun x hx => h x (by rw [hm, List.mem_singleton] at hx; rw [hx]; exact List.mem_cons_self ..)) ps]

theorem callNamed_of {e : Enc} {n : Nat} {c : PElem.Call} (h : ∀ x ∈ c.names, ∃ k, nameKey e n x = .ok k) : CallNamed e n c := by
  cases c with
  | tag name => exact fun nm hn => h nm (by rw [hn]; exact List.mem_singleton.2 rfl)
  | «attribute» name => exact fun nm hn => h nm (by rw [hn]; exact List.mem_singleton.2 rfl)
  | ifAttribute name value =>
    exact ⟨fun nm hn => h nm (List.mem_append_left _ (by rw [hn]; exact List.mem_singleton.2 rfl)),
      fun nm hn => h nm (List.mem_append_right _ (by rw [hn]; exact List.mem_singleton.2 rfl))⟩
  | _ => trivial

theorem forEach_good {e : Enc} {n : Nat} {c : PElem.Call} (hc : CallNamed e n c) : ∀ {ps : List PElem} {a : Atm}, Good a → (∀ p ∈ ps, Valid a p.stateidx) →
    ∃ qs a', forEach e n c ps a = (.ok qs, a') ∧ Good a' ∧ a.length ≤ a'.length ∧ ∀ q ∈ qs, Valid a' q.stateidx
  | [], a, g, _ => ⟨[], a, rfl, g, Nat.le_refl _, fun _ h => nomatch h⟩
  | p :: ps, a, g, hv => by
    obtain ⟨q, a1, h1, h2, h3, h4⟩ := call_good g (hv p (List.mem_cons_self ..)) hc
    obtain ⟨qs, a2, k1, k2, k3, k4⟩ := forEach_good hc h2 (fun x hx => Valid.mono h4 (hv x (List.mem_cons_of_mem _ hx)))
    refine ⟨q :: qs, a2, ?_, k2, Nat.le_trans h4 k3, fun x hx => ?_⟩
    · unfold forEach
      rw [M.bind_ok h1, M.bind_ok k1]
      rfl
    · rcases List.mem_cons.1 hx with rfl | hx
      · exact Valid.mono k3 h3
      · exact k4 x hx

theorem forAlt_good {e : Enc} {n : Nat} {mk : Option (List Byte) → PElem.Call} {ps : List PElem} : ∀ {alt : List (List Byte)} {a : Atm}, (∀ x ∈ alt, CallNamed e n (mk (some x))) →
    Good a → (∀ p ∈ ps, Valid a p.stateidx) →
    ∃ qs a', forAlt e n mk ps alt a = (.ok qs, a') ∧ Good a' ∧ a.length ≤ a'.length ∧ ∀ q ∈ qs, Valid a' q.stateidx
  | [], a, _, g, _ => ⟨[], a, rfl, g, Nat.le_refl _, fun _ h => nomatch h⟩
  | y :: alt, a, hc, g, hv => by
    obtain ⟨q, a1, h1, h2, h4, h3⟩ := forEach_good (hc y (List.mem_cons_self ..)) g hv
    obtain ⟨qs, a2, k1, k2, k3, k4⟩ := forAlt_good (fun x hx => hc x (List.mem_cons_of_mem _ hx)) h2 (fun x hx => Valid.mono h4 (hv x hx))
    refine ⟨q ++ qs, a2, ?_, k2, Nat.le_trans h4 k3, fun x hx => ?_⟩
    · unfold forAlt
      rw [M.bind_ok h1, M.bind_ok k1]
      rfl
    · rcases List.mem_append.1 hx with hx | hx
      · exact Valid.mono k3 (h3 x hx)
      · exact k4 x hx

/-! ## Texts -/

section

variable {src : List Byte} {hb : ∀ b ∈ src, b < 256} {se : Enc}

/-- The reader of the text is at a place in it, or close behind. -/
def Rests (src : List Byte) (hb : ∀ b ∈ src, b < 256) (se : Enc) (t : Parse.Src) (k : Nat) : Prop :=
  (∃ ld, TRel (cstrSource src hb) se t ⟨k, ld⟩) ∧ k ≤ src.length + 8

/-- With enough fuel, the function returns always the same from a place in the text. -/
def Det (src : List Byte) (hb : ∀ b ∈ src, b < 256) (se : Enc) {α : Type} (x : Nat → M Parse.Src α) (N k : Nat) (Q : α → Nat → Prop) : Prop :=
  k ≤ src.length + 8 → ∃ v k', Q v k' ∧ k' ≤ src.length + 8 ∧
    ∀ n, N ≤ n → ∀ t, Rests src hb se t k → ∃ t', x n t = (.ok v, t') ∧ Rests src hb se t' k'

theorem Det.pure {α : Type} {v : α} {N k : Nat} {Q : α → Nat → Prop} (h : Q v k) : Det src hb se (fun _ => (Pure.pure v : M Parse.Src α)) N k Q :=
  fun hk => ⟨v, k, h, hk, fun _ _ t ht => ⟨t, rfl, ht⟩⟩

theorem Det.bind {α β : Type} {x : Nat → M Parse.Src α} {f : Nat → α → M Parse.Src β} {N k : Nat} {Q : α → Nat → Prop} {R : β → Nat → Prop}
    (h : Det src hb se x N k Q) (h' : ∀ v k', Q v k' → Det src hb se (fun n => f n v) N k' R) : Det src hb se (fun n => x n >>= f n) N k R := by
  intro hk
  obtain ⟨v, k', h1, hk', h2⟩ := h hk
  obtain ⟨w, k2, h3, hk2, h4⟩ := h' v k' h1 hk'
  refine ⟨w, k2, h3, hk2, fun n hn t ht => ?_⟩
  obtain ⟨t1, j1, j2⟩ := h2 n hn t ht
  obtain ⟨t2, j3, j4⟩ := h4 n hn t1 j2
  refine ⟨t2, ?_, j4⟩
  show (x n >>= f n) t = _
  rw [M.bind_ok j1]
  exact j3

theorem Det.mono {α : Type} {x : Nat → M Parse.Src α} {N N' k : Nat} {Q R : α → Nat → Prop} (h : Det src hb se x N k Q) (hn : N ≤ N')
    (hq : ∀ v k', Q v k' → R v k') : Det src hb se x N' k R := by
  intro hk
  obtain ⟨v, k', h1, hk', h2⟩ := h hk
  exact ⟨v, k', hq v k' h1, hk', fun n hn' => h2 n (by omega)⟩

theorem Det.succ {α : Type} {x y : Nat → M Parse.Src α} {N k : Nat} {Q : α → Nat → Prop} (h : Det src hb se y N k Q) (hx : ∀ n, x (n + 1) = y n) :
    Det src hb se x (N + 1) k Q := by
  intro hk
  obtain ⟨v, k', h1, hk', h2⟩ := h hk
  refine ⟨v, k', h1, hk', fun n hn t ht => ?_⟩
  obtain ⟨n, rfl⟩ : ∃ m, n = m + 1 := ⟨n - 1, by omega⟩
  rw [hx]
  exact h2 n (by omega) t ht

theorem Det.chr {N k : Nat} : Det src hb se (fun _ => TextScanner.chr) N k (fun v k' => v = uval se (cyc src) k ∧ k' = k) := by
  refine fun hk => ⟨_, k, ⟨rfl, rfl⟩, hk, fun n _ t ⟨⟨ld, h⟩, _⟩ => ?_⟩
  obtain ⟨t', h1, h2⟩ := h.chr_ok (fun _ _ _ => ⟨trivial, trivial⟩)
  exact ⟨t', h1, ⟨_, h2⟩, hk⟩

theorem Det.control {N k : Nat} : Det src hb se (fun _ => TextScanner.control) N k (fun v k' => v = controlCharMap (uasc se (cyc src) k) ∧ k' = k) := by
  refine fun hk => ⟨_, k, ⟨rfl, rfl⟩, hk, fun n _ t ⟨⟨ld, h⟩, _⟩ => ?_⟩
  obtain ⟨t', h1, h2⟩ := h.control_ok (fun _ _ _ => ⟨trivial, trivial⟩)
  exact ⟨t', h1, ⟨_, h2⟩, hk⟩

theorem Det.skip {N k : Nat} (hk : k < src.length) : Det src hb se (fun _ => TextScanner.skip) N k (fun _ k' => k < k') := by
  have h1 := ulen_pos se (cyc src) k
  have h4 := ulen_le se (cyc src) k
  refine fun _ => ⟨(), k + ulen se (cyc src) k, by omega, by omega, fun n _ t ⟨⟨ld, h⟩, _⟩ => ?_⟩
  obtain ⟨t', h2, h3⟩ := h.skip_ok (fun _ _ _ => ⟨trivial, trivial⟩)
  exact ⟨t', h2, ⟨_, h3⟩, by omega⟩

/-- Behind the end of the text there are only null characters. -/
theorem text_end (hl : src.length + 16 < 2 ^ 32) {k : Nat} (h1 : src.length ≤ k) (h2 : k ≤ src.length + 8) :
    uval se (cyc src) k = 0 ∧ uasc se (cyc src) k = 0 := by
  have z : ∀ i, i < 8 → cyc src (k + i) = 0 := fun i hi => cyc_end (by omega) (by omega)
  have z0 : cyc src k = 0 := z 0 (by omega)
  have z1 := z 1 (by omega)
  have z2 := z 2 (by omega)
  have z3 := z 3 (by omega)
  have hv : uval se (cyc src) k = 0 := by
    cases se with
    | utf8 => simp [uval, utf8Val, z0]
    | utf16 be => cases be <;> simp [uval, unit16, z0, z1]
    | ucs2 be => cases be <;> simp [uval, unit16, z0, z1]
    | ucs4 be => cases be <;> simp [uval, z0, z1, z2, z3]
    | isolatin p => simp [uval, z0]
  refine ⟨hv, ?_⟩
  cases se with
  | utf8 => simp [uasc, z0]
  | isolatin p => simp [uasc, z0]
  | utf16 be => simp [uasc, hv]
  | ucs2 be => simp [uasc, hv]
  | ucs4 be => simp [uasc, hv]

/-- The text is not at its end. -/
theorem before (hl : src.length + 16 < 2 ^ 32) {k : Nat} (h2 : k ≤ src.length + 8) (h : uval se (cyc src) k ≠ 0 ∨ uasc se (cyc src) k ≠ 0) : k < src.length := by
  rcases Nat.lt_or_ge k src.length with h1 | h1
  · exact h1
  · have := text_end (se := se) hl h1 h2
    rcases h with h | h
    · exact (h this.1).elim
    · exact (h this.2).elim

theorem Det.at {α : Type} {x : Nat → M Parse.Src α} {N k : Nat} {Q : α → Nat → Prop} (h : k ≤ src.length + 8 → Det src hb se x N k Q) : Det src hb se x N k Q :=
  fun hk => h hk hk

theorem Det.skipSpaces (hl : src.length + 16 < 2 ^ 32) : ∀ (d k : Nat), src.length - k ≤ d → Det src hb se Parse.skipSpaces (d + 1) k (fun _ k' => k ≤ k')
  | d, k, hd => by
    refine Det.at fun hk => ?_
    refine Det.succ (y := fun n => do
      let c ← TextScanner.control
      if c = .Space then do
        TextScanner.skip
        Parse.skipSpaces n
      else Pure.pure ()) ?_ (fun n => rfl)
    refine Det.control.bind fun v k' hv => ?_
    obtain ⟨rfl, rfl⟩ := hv
    by_cases hc : controlCharMap (uasc se (cyc src) k') = .Space
    · simp only [if_pos hc]
      have hlt : k' < src.length := before (se := se) hl hk (.inr fun h0 => by rw [h0] at hc; revert hc; decide)
      obtain ⟨d, rfl⟩ : ∃ m, d = m + 1 := ⟨d - 1, by omega⟩
      refine (Det.skip hlt).bind fun _ k2 h2 => ?_
      exact (Det.skipSpaces hl d k2 (by omega)).mono (by omega) fun _ k3 h3 => by omega
    · simp only [if_neg hc]
      exact Det.pure (Nat.le_refl _)

/-- The character at a place is one of identifiers. -/
def identAt (se : Enc) (src : List Byte) (k : Nat) : Bool :=
  decide (controlCharMap (uasc se (cyc src) k) = .Undef ∨ controlCharMap (uasc se (cyc src) k) = .Any) && !Parse.isOpChar (uval se (cyc src) k)

theorem identAt_ne {k : Nat} (h : identAt se src k = true) : uval se (cyc src) k ≠ 0 := by
  intro h0
  unfold identAt at h
  rw [h0] at h
  simp [show Parse.isOpChar 0 = true by decide] at h

theorem Det.isIdentifierChar {N k : Nat} : Det src hb se (fun _ => Parse.isIdentifierChar) N k
    (fun v k' => k' = k ∧ v = identAt se src k) := by
  unfold Parse.isIdentifierChar identAt
  refine Det.control.bind fun v k' hv => ?_
  obtain ⟨rfl, rfl⟩ := hv
  by_cases hc : controlCharMap (uasc se (cyc src) k') = .Undef ∨ controlCharMap (uasc se (cyc src) k') = .Any
  · simp only [if_pos hc]
    refine Det.chr.bind fun v k2 hv => ?_
    obtain ⟨rfl, rfl⟩ := hv
    refine Det.pure ⟨rfl, ?_⟩
    simp [hc]
  · simp only [if_neg hc]
    refine Det.pure ⟨rfl, ?_⟩
    simp [hc]

theorem Det.digits (hl : src.length + 16 < 2 ^ 32) : ∀ (d k : Nat), src.length - k ≤ d → Det src hb se Parse.digits (d + 1) k (fun _ k' => k ≤ k')
  | d, k, hd => by
    refine Det.at fun hk => ?_
    refine Det.succ (y := fun n => do
      let c ← TextScanner.chr
      if 48 ≤ c ∧ c ≤ 57 then do
        TextScanner.skip
        let ds ← Parse.digits n
        Pure.pure (c :: ds)
      else Pure.pure []) ?_ (fun n => rfl)
    refine Det.chr.bind fun v k' hv => ?_
    obtain ⟨rfl, rfl⟩ := hv
    by_cases hc : 48 ≤ uval se (cyc src) k' ∧ uval se (cyc src) k' ≤ 57
    · simp only [if_pos hc]
      have hlt : k' < src.length := before (se := se) hl hk (.inl (by omega))
      obtain ⟨d, rfl⟩ : ∃ m, d = m + 1 := ⟨d - 1, by omega⟩
      refine (Det.skip hlt).bind fun _ k2 h2 => ?_
      refine ((Det.digits hl d k2 (by omega)).mono (by omega) (fun _ _ h => h)).bind fun ds k3 h3 => ?_
      exact Det.pure (by omega)
    · simp only [if_neg hc]
      exact Det.pure (Nat.le_refl _)

theorem Det.parseNum (hl : src.length + 16 < 2 ^ 32) {k : Nat} : Det src hb se Parse.parseNum (src.length + 1) k (fun _ k' => k ≤ k') := by
  unfold Parse.parseNum
  refine (Det.digits hl src.length k (by omega)).bind fun ds k3 h3 => ?_
  exact Det.pure h3

theorem Det.spaces (hl : src.length + 16 < 2 ^ 32) {k : Nat} : Det src hb se Parse.skipSpaces (src.length + 1) k (fun _ k' => k ≤ k') :=
  Det.skipSpaces hl src.length k (by omega)

variable {e : Enc}

theorem Det.ident (he : ByteSet e) (hl : src.length + 16 < 2 ^ 32) : ∀ (d k : Nat), src.length - k ≤ d → Det src hb se (Parse.parseIdentifier e) (d + 1) k
    (fun v k' => WholeName e v ∧ k ≤ k' ∧ (identAt se src k = true → k < k'))
  | d, k, hd => by
    refine Det.at fun hk => ?_
    refine Det.succ (y := fun n => do
      if ← Parse.isIdentifierChar then do
        let c ← TextScanner.chr
        TextScanner.skip
        let bs ← Parse.parseIdentifier e n
        Pure.pure (e.print c ++ bs)
      else Pure.pure []) ?_ (fun n => rfl)
    refine Det.isIdentifierChar.bind fun v k' hv => ?_
    obtain ⟨rfl, hv⟩ := hv
    cases v with
    | true =>
      simp only [if_true]
      have hlt : k' < src.length := before (se := se) hl hk (.inl (identAt_ne hv.symm))
      refine Det.chr.bind fun c k1 hc => ?_
      obtain ⟨rfl, rfl⟩ := hc
      obtain ⟨d, rfl⟩ : ∃ m, d = m + 1 := ⟨d - 1, by omega⟩
      refine (Det.skip hlt).bind fun _ k2 h2 => ?_
      refine ((Det.ident he hl d k2 (by omega)).mono (by omega) (fun _ _ h => h)).bind fun bs k3 h3 => ?_
      exact Det.pure ⟨(print_name he (uval_lt se (cyc_lt src hb) k1)).append h3.1, by omega, fun _ => by omega⟩
    | false =>
      simp only [Bool.false_eq_true, if_false]
      exact Det.pure ⟨.nil, Nat.le_refl _, fun h => by rw [← hv] at h; cases h⟩

theorem Det.quoted (he : ByteSet e) (eb : UChar) (hl : src.length + 16 < 2 ^ 32) : ∀ (d k : Nat), src.length - k ≤ d → Det src hb se (Parse.quoted e eb) (d + 1) k
    (fun v k' => WholeName e v ∧ k ≤ k')
  | d, k, hd => by
    refine Det.at fun hk => ?_
    refine Det.succ (y := fun n => do
      let c ← TextScanner.chr
      if c ≠ 0 ∧ c ≠ eb then do
        TextScanner.skip
        let bs ← Parse.quoted e eb n
        Pure.pure (e.print c ++ bs)
      else Pure.pure []) ?_ (fun n => rfl)
    refine Det.chr.bind fun c k1 hc => ?_
    obtain ⟨rfl, rfl⟩ := hc
    by_cases hc : uval se (cyc src) k1 ≠ 0 ∧ uval se (cyc src) k1 ≠ eb
    · simp only [if_pos hc]
      have hlt : k1 < src.length := before (se := se) hl hk (.inl hc.1)
      obtain ⟨d, rfl⟩ : ∃ m, d = m + 1 := ⟨d - 1, by omega⟩
      refine (Det.skip hlt).bind fun _ k2 h2 => ?_
      refine ((Det.quoted he eb hl d k2 (by omega)).mono (by omega) (fun _ _ h => h)).bind fun bs k3 h3 => ?_
      exact Det.pure ⟨(print_name he (uval_lt se (cyc_lt src hb) k1)).append h3.1, by omega⟩
    · simp only [if_neg hc]
      exact Det.pure ⟨.nil, Nat.le_refl _⟩

theorem Det.value (he : ByteSet e) (hl : src.length + 16 < 2 ^ 32) {k : Nat} : Det src hb se (Parse.parseValue e) (src.length + 1) k
    (fun v k' => (∀ bs, v = some bs → WholeName e bs) ∧ k ≤ k') := by
  refine Det.at fun hk => ?_
  unfold Parse.parseValue
  refine Det.chr.bind fun c k1 hc => ?_
  obtain ⟨rfl, rfl⟩ := hc
  by_cases hc : uval se (cyc src) k1 = 34 ∨ uval se (cyc src) k1 = 39
  · simp only [if_pos hc]
    have hlt : k1 < src.length := before (se := se) hl hk (.inl (by omega))
    refine (Det.skip hlt).bind fun _ k2 h2 => ?_
    refine (Det.quoted he _ hl src.length k2 (by omega)).bind fun bs k3 h3 => ?_
    refine Det.at fun hk3 => ?_
    refine Det.chr.bind fun c k4 hc => ?_
    obtain ⟨rfl, rfl⟩ := hc
    by_cases h0 : uval se (cyc src) k4 ≠ 0
    · simp only [if_pos h0]
      refine (Det.skip (before (se := se) hl hk3 (.inl h0))).bind fun _ k5 h5 => ?_
      exact Det.pure ⟨fun x hx => by cases hx; exact h3.1, by omega⟩
    · simp only [if_neg h0]
      exact Det.pure ⟨fun x hx => by cases hx; exact h3.1, by omega⟩
  · simp only [if_neg hc]
    refine Det.isIdentifierChar.bind fun v k' hv => ?_
    obtain ⟨rfl, hv⟩ := hv
    cases v with
    | true =>
      simp only [if_true]
      refine (Det.ident he hl src.length k' (by omega)).bind fun bs k3 h3 => ?_
      exact Det.pure ⟨fun x hx => by cases hx; exact h3.1, by omega⟩
    | false =>
      simp only [Bool.false_eq_true, if_false]
      exact Det.pure ⟨(fun x hx => nomatch hx), Nat.le_refl _⟩

theorem Det.congr {α : Type} {x y : Nat → M Parse.Src α} {N k : Nat} {Q : α → Nat → Prop} (h : Det src hb se y N k Q) (hx : ∀ n, N ≤ n → x n = y n) :
    Det src hb se x N k Q := by
  intro hk
  obtain ⟨v, k', h1, hk', h2⟩ := h hk
  refine ⟨v, k', h1, hk', fun n hn t ht => ?_⟩
  rw [hx n hn]
  exact h2 n hn t ht

theorem Det.identifiers (he : ByteSet e) (hl : src.length + 16 < 2 ^ 32) : ∀ (d k : Nat) (g : Nat → Nat), src.length - k ≤ d → (∀ n, src.length + 1 ≤ n → d < g n) →
    k < src.length → Det src hb se (fun n => Parse.identifiers e n (g n)) (src.length + 1) k
    (fun v k' => (∀ l, v = some l → ∀ x ∈ l, WholeName e x) ∧ k < k')
  | 0, k, g, hd, hg, hk => by omega
  | d + 1, k, g, hd, hg, hk => by
    refine Det.congr (y := fun n => do
      TextScanner.skip
      Parse.skipSpaces n
      if ← Parse.isIdentifierChar then do
        let bs ← Parse.parseIdentifier e n
        Parse.skipSpaces n
        let c ← TextScanner.chr
        if c = 44 then do
          let r ← Parse.identifiers e n (g n - 1)
          Pure.pure (r.map (bs :: ·))
        else Pure.pure (some [bs])
      else Pure.pure none) ?_ (fun n hn => by
        have := hg n hn
        obtain ⟨m, hm⟩ : ∃ m, g n = m + 1 := ⟨g n - 1, by omega⟩
        rw [hm]
        rfl)
    refine (Det.skip hk).bind fun _ k1 h1 => ?_
    refine (Det.spaces hl).bind fun _ k2 h2 => ?_
    refine Det.isIdentifierChar.bind fun v k3 hv => ?_
    obtain ⟨rfl, hv⟩ := hv
    cases v with
    | true =>
      simp only [if_true]
      refine (Det.ident he hl src.length k3 (by omega)).bind fun bs k4 h4 => ?_
      refine (Det.spaces hl).bind fun _ k5 h5 => ?_
      refine Det.at fun hk5 => ?_
      refine Det.chr.bind fun c k6 hc => ?_
      obtain ⟨rfl, rfl⟩ := hc
      by_cases hc : uval se (cyc src) k6 = 44
      · simp only [if_pos hc]
        have hlt : k6 < src.length := before (se := se) hl hk5 (.inl (by omega))
        refine (Det.identifiers he hl d k6 (fun n => g n - 1) (by omega) (fun n hn => by
          have := hg n hn
          omega) hlt).bind fun r k7 h7 => ?_
        refine Det.pure ⟨fun l hx x hm => ?_, by omega⟩
        cases r with
        | none => cases hx
        | some l' =>
          cases hx
          rcases List.mem_cons.1 hm with rfl | hm
          · exact h4.1
          · exact h7.1 l' rfl x hm
      · simp only [if_neg hc]
        refine Det.pure ⟨fun l hx x hm => ?_, by omega⟩
        cases hx
        rw [List.mem_singleton.1 hm]
        exact h4.1
    | false =>
      simp only [Bool.false_eq_true, if_false]
      exact Det.pure ⟨(fun x hx => nomatch hx), by omega⟩

theorem Det.identifierList (he : ByteSet e) (hl : src.length + 16 < 2 ^ 32) {k : Nat} (hk : k < src.length) : Det src hb se (Parse.identifierList e) (src.length + 1) k
    (fun v k' => (∀ l, v = some l → ∀ x ∈ l, WholeName e x) ∧ k < k') := by
  unfold Parse.identifierList
  refine (Det.identifiers he hl src.length k (fun n => n) (by omega) (fun n hn => by omega) hk).bind fun r k1 h1 => ?_
  cases r with
  | none => exact Det.pure ⟨(fun x hx => nomatch hx), h1.2⟩
  | some l =>
    simp only []
    refine Det.at fun hk1 => ?_
    refine Det.chr.bind fun c k2 hc => ?_
    obtain ⟨rfl, rfl⟩ := hc
    by_cases hc : uval se (cyc src) k2 ≠ 125
    · simp only [if_pos hc]
      exact Det.pure ⟨(fun x hx => nomatch hx), h1.2⟩
    · simp only [if_neg hc]
      refine (Det.skip (before (se := se) hl hk1 (.inl (by omega)))).bind fun _ k3 h3 => ?_
      exact Det.pure ⟨fun x hx => by cases hx; exact h1.1 l rfl, by omega⟩

/-- The names in what a turn of the parser calls are whole. -/
def ActOk (e : Enc) : Act → Prop
  | .none => True
  | .call c => ∀ x ∈ c.names, WholeName e x
  | .tags alt => ∀ x ∈ alt, WholeName e x
  | .attributes alt => ∀ x ∈ alt, WholeName e x

theorem Det.attribute (he : ByteSet e) (hl : src.length + 16 < 2 ^ 32) {k : Nat} (hk : k < src.length) : Det src hb se (Parse.attributeCondition e) (src.length + 1) k
    (fun v k' => (∀ a, v = some a → ActOk e a) ∧ k < k') := by
  unfold Parse.attributeCondition
  refine (Det.skip hk).bind fun _ k1 h1 => ?_
  refine (Det.spaces hl).bind fun _ k2 h2 => ?_
  refine Det.isIdentifierChar.bind fun v k3 hv => ?_
  obtain ⟨rfl, hv⟩ := hv
  cases v with
  | false =>
    simp only [Bool.false_eq_true, if_false]
    exact Det.pure ⟨(fun x hx => nomatch hx), by omega⟩
  | true =>
    simp only [if_true]
    refine (Det.ident he hl src.length k3 (by omega)).bind fun name k4 h4 => ?_
    refine (Det.spaces hl).bind fun _ k5 h5 => ?_
    refine Det.at fun hk5 => ?_
    refine Det.chr.bind fun c k6 hc => ?_
    obtain ⟨rfl, rfl⟩ := hc
    by_cases hc : uval se (cyc src) k6 ≠ 61
    · simp only [if_pos hc]
      exact Det.pure ⟨(fun x hx => nomatch hx), by omega⟩
    · simp only [if_neg hc]
      refine (Det.skip (before (se := se) hl hk5 (.inl (by omega)))).bind fun _ k7 h7 => ?_
      refine (Det.spaces hl).bind fun _ k8 h8 => ?_
      refine (Det.value he hl).bind fun value k9 h9 => ?_
      refine (Det.spaces hl).bind fun _ k10 h10 => ?_
      cases value with
      | none => exact Det.pure ⟨(fun x hx => nomatch hx), by omega⟩
      | some v =>
        simp only []
        refine Det.at fun hk10 => ?_
        refine Det.chr.bind fun c k11 hc => ?_
        obtain ⟨rfl, rfl⟩ := hc
        by_cases hc : uval se (cyc src) k11 ≠ 93
        · simp only [if_pos hc]
          exact Det.pure ⟨(fun x hx => nomatch hx), by omega⟩
        · simp only [if_neg hc]
          refine (Det.skip (before (se := se) hl hk10 (.inl (by omega)))).bind fun _ k12 h12 => ?_
          refine Det.pure ⟨fun a ha => ?_, by omega⟩
          cases ha
          intro x hx
          rcases List.mem_append.1 hx with hx | hx
          · cases List.mem_singleton.1 hx
            exact h4.1
          · cases List.mem_singleton.1 hx
            exact h9.1 _ rfl

theorem Det.range (hl : src.length + 16 < 2 ^ 32) {k : Nat} : Det src hb se Parse.rangeCondition (src.length + 1) k
    (fun v k' => (∀ a, v = some a → ActOk e a) ∧ k ≤ k') := by
  unfold Parse.rangeCondition
  refine (Det.spaces hl).bind fun _ k1 h1 => ?_
  refine Det.isIdentifierChar.bind fun v k2 hv => ?_
  obtain ⟨rfl, hv⟩ := hv
  cases v with
  | false =>
    simp only [Bool.false_eq_true, if_false]
    exact Det.pure ⟨(fun x hx => nomatch hx), by omega⟩
  | true =>
    simp only [if_true]
    refine (Det.parseNum hl).bind fun o k3 h3 => ?_
    cases o with
    | none => exact Det.pure ⟨(fun x hx => nomatch hx), by omega⟩
    | some i =>
      simp only []
      refine (Det.spaces hl).bind fun _ k4 h4 => ?_
      refine Det.at fun hk4 => ?_
      refine Det.chr.bind fun c k5 hc => ?_
      obtain ⟨rfl, rfl⟩ := hc
      by_cases hc : uval se (cyc src) k5 = 44
      · simp only [if_pos hc]
        refine (Det.skip (before (se := se) hl hk4 (.inl (by omega)))).bind fun _ k6 h6 => ?_
        refine (Det.spaces hl).bind fun _ k7 h7 => ?_
        refine Det.at fun hk7 => ?_
        refine Det.chr.bind fun c k8 hc => ?_
        obtain ⟨rfl, rfl⟩ := hc
        by_cases hc : uval se (cyc src) k8 = 93
        · simp only [if_pos hc]
          refine (Det.skip (before (se := se) hl hk7 (.inl (by omega)))).bind fun _ k9 h9 => ?_
          refine Det.pure ⟨fun a ha => ?_, by omega⟩
          cases ha
          exact fun x hx => nomatch hx
        · simp only [if_neg hc]
          refine Det.isIdentifierChar.bind fun v k9 hv => ?_
          obtain ⟨rfl, hv⟩ := hv
          cases v with
          | false =>
            simp only [Bool.false_eq_true, if_false]
            exact Det.pure ⟨(fun x hx => nomatch hx), by omega⟩
          | true =>
            simp only [if_true]
            refine (Det.parseNum hl).bind fun o k10 h10 => ?_
            cases o with
            | none => exact Det.pure ⟨(fun x hx => nomatch hx), by omega⟩
            | some j =>
              simp only []
              refine (Det.spaces hl).bind fun _ k11 h11 => ?_
              refine Det.at fun hk11 => ?_
              refine Det.chr.bind fun c k12 hc => ?_
              obtain ⟨rfl, rfl⟩ := hc
              by_cases hc : uval se (cyc src) k12 ≠ 93
              · simp only [if_pos hc]
                exact Det.pure ⟨(fun x hx => nomatch hx), by omega⟩
              · simp only [if_neg hc]
                refine (Det.skip (before (se := se) hl hk11 (.inl (by omega)))).bind fun _ k13 h13 => ?_
                refine Det.pure ⟨fun a ha => ?_, by omega⟩
                cases ha
                exact fun x hx => nomatch hx
      · simp only [if_neg hc]
        by_cases hc : uval se (cyc src) k5 = 93
        · simp only [if_pos hc]
          refine (Det.skip (before (se := se) hl hk4 (.inl (by omega)))).bind fun _ k6 h6 => ?_
          refine Det.pure ⟨fun a ha => ?_, by omega⟩
          cases ha
          exact fun x hx => nomatch hx
        · simp only [if_neg hc]
          exact Det.pure ⟨(fun x hx => nomatch hx), by omega⟩

/-- One turn of the parser. -/
theorem Det.turn (he : ByteSet e) (hl : src.length + 16 < 2 ^ 32) {k : Nat} (hk : k < src.length) (st : PState) :
    Det src hb se (fun n => Parse.turn e n st (uval se (cyc src) k)) (src.length + 1) k
    (fun v k' => k ≤ k' ∧ ∀ a st', v = some (a, st') → ActOk e a ∧ k < k') := by
  have no : Det src hb se (fun _ => (Pure.pure none : M Parse.Src (Option (Act × PState)))) (src.length + 1) k
      (fun v k' => k ≤ k' ∧ ∀ a st', v = some (a, st') → ActOk e a ∧ k < k') := Det.pure ⟨Nat.le_refl _, fun _ _ h => nomatch h⟩
  have one : ∀ (a : Act) (st' : PState), ActOk e a → Det src hb se (fun _ => do
      TextScanner.skip
      (Pure.pure (some (a, st')) : M Parse.Src (Option (Act × PState)))) (src.length + 1) k
      (fun v k' => k ≤ k' ∧ ∀ a st', v = some (a, st') → ActOk e a ∧ k < k') := by
    intro a st' ha
    refine (Det.skip hk).bind fun _ k1 h1 => ?_
    exact Det.pure ⟨by omega, fun _ _ h => by cases h; exact ⟨ha, h1⟩⟩
  unfold Parse.turn
  generalize hc : uval se (cyc src) k = c
  by_cases h1 : c = 64
  · simp only [if_pos h1]
    split
    · exact no
    · exact one _ _ trivial
  simp only [if_neg h1]
  by_cases h2 : c = 47
  · simp only [if_pos h2]
    split
    · exact no
    refine (Det.skip hk).bind fun _ k1 j1 => ?_
    refine Det.at fun hk1 => ?_
    refine Det.chr.bind fun c' k2 hc' => ?_
    obtain ⟨rfl, rfl⟩ := hc'
    by_cases hs : uval se (cyc src) k2 = 47
    · simp only [if_pos hs]
      refine (Det.skip (before (se := se) hl hk1 (.inl (by omega)))).bind fun _ k3 j3 => ?_
      exact Det.pure ⟨by omega, fun _ _ h => by cases h; exact ⟨(fun x hx => nomatch hx), by omega⟩⟩
    · simp only [if_neg hs]
      exact Det.pure ⟨by omega, fun _ _ h => by cases h; exact ⟨trivial, by omega⟩⟩
  simp only [if_neg h2]
  by_cases h3 : c = 91
  · simp only [if_pos h3]
    split
    · exact no
    refine (Det.skip hk).bind fun _ k1 j1 => ?_
    refine (Det.spaces hl).bind fun _ k2 j2 => ?_
    refine Det.at fun hk2 => ?_
    refine Det.chr.bind fun c' k3 hc' => ?_
    obtain ⟨rfl, rfl⟩ := hc'
    by_cases hs : uval se (cyc src) k3 = 64
    · simp only [if_pos hs]
      refine (Det.attribute he hl (before (se := se) hl hk2 (.inl (by omega)))).bind fun a k4 j4 => ?_
      refine Det.pure ⟨by omega, fun _ _ h => ?_⟩
      cases a with
      | none => cases h
      | some a => cases h; exact ⟨j4.1 _ rfl, by omega⟩
    · simp only [if_neg hs]
      refine (Det.range (e := e) hl).bind fun a k4 j4 => ?_
      refine Det.pure ⟨by omega, fun _ _ h => ?_⟩
      cases a with
      | none => cases h
      | some a => cases h; exact ⟨j4.1 _ rfl, by omega⟩
  simp only [if_neg h3]
  by_cases h4 : c = 40
  · simp only [if_pos h4]
    split
    · exact no
    refine (Det.skip hk).bind fun _ k1 j1 => ?_
    refine (Det.spaces hl).bind fun _ k2 j2 => ?_
    refine Det.at fun hk2 => ?_
    refine Det.chr.bind fun c' k3 hc' => ?_
    obtain ⟨rfl, rfl⟩ := hc'
    by_cases hs : uval se (cyc src) k3 ≠ 41
    · simp only [if_pos hs]
      exact Det.pure ⟨by omega, fun _ _ h => nomatch h⟩
    · simp only [if_neg hs]
      refine (Det.skip (before (se := se) hl hk2 (.inl (by omega)))).bind fun _ k3 j3 => ?_
      exact Det.pure ⟨by omega, fun _ _ h => by cases h; exact ⟨(fun x hx => nomatch hx), by omega⟩⟩
  simp only [if_neg h4]
  by_cases h5 : c = 42
  · simp only [if_pos h5]
    split
    · exact no
    split
    · exact one _ _ (fun x hx => nomatch hx)
    · exact one _ _ (fun x hx => nomatch hx)
  simp only [if_neg h5]
  by_cases h6 : c = 123
  · simp only [if_pos h6]
    split
    · exact no
    refine (Det.identifierList he hl hk).bind fun o k1 j1 => ?_
    cases o with
    | none => exact Det.pure ⟨by omega, fun _ _ h => nomatch h⟩
    | some alt =>
      simp only []
      split
      · exact Det.pure ⟨by omega, fun _ _ h => by cases h; exact ⟨j1.1 _ rfl, by omega⟩⟩
      · exact Det.pure ⟨by omega, fun _ _ h => by cases h; exact ⟨j1.1 _ rfl, by omega⟩⟩
  simp only [if_neg h6]
  by_cases h7 : c = 126
  · simp only [if_pos h7]
    split
    · exact no
    · exact one _ _ (fun x hx => nomatch hx)
  simp only [if_neg h7]
  split
  · exact no
  refine Det.isIdentifierChar.bind fun v k1 hv => ?_
  obtain ⟨rfl, hv⟩ := hv
  cases v with
  | false =>
    simp only [Bool.false_eq_true, if_false]
    exact Det.pure ⟨by omega, fun _ _ h => nomatch h⟩
  | true =>
    simp only [if_true]
    refine (Det.ident he hl src.length k1 (by omega)).bind fun bs k2 j2 => ?_
    have j3 := j2.2.2 hv.symm
    split
    · exact Det.pure ⟨by omega, fun _ _ h => by
        cases h
        exact ⟨fun x hx => by cases List.mem_singleton.1 hx; exact j2.1, by omega⟩⟩
    · exact Det.pure ⟨by omega, fun _ _ h => by
        cases h
        exact ⟨fun x hx => by cases List.mem_singleton.1 hx; exact j2.1, by omega⟩⟩

/-- What a turn of the parser calls does its work. -/
theorem act_settle (he : ByteSet e) {act : Act} (h : ActOk e act) {ps : List PElem} {a : Atm} (g : Good a) (hv : ∀ p ∈ ps, Valid a p.stateidx) :
    ∃ N qs a', (∀ n, N ≤ n → act.run e n ps a = (.ok qs, a')) ∧ Good a' ∧ a.length ≤ a'.length ∧ ∀ q ∈ qs, Valid a' q.stateidx := by
  cases act with
  | none => exact ⟨0, ps, a, fun _ _ => rfl, g, Nat.le_refl _, hv⟩
  | call c =>
    obtain ⟨N, hN⟩ := names_settle he (l := c.names) h
    obtain ⟨qs, a', h1, h2⟩ := forEach_good (callNamed_of (n := N) fun x hx => (hN N (Nat.le_refl _) x hx).2) g hv
    refine ⟨N, qs, a', fun n hn => ?_, h2⟩
    simp only [Act.run]
    rw [forEach_same (m := N) (fun x hx => (hN n hn x hx).1) ps, h1]
  | tags alt =>
    obtain ⟨N, hN⟩ := names_settle he (l := alt) h
    obtain ⟨qs, a', h1, h2⟩ := forAlt_good (n := N) (mk := .tag) (alt := alt) (fun x hx => callNamed_of fun y hy => by
      rw [List.mem_singleton.1 hy]
      exact (hN N (Nat.le_refl _) x hx).2) g hv
    refine ⟨N, qs, a', fun n hn => ?_, h2⟩
    simp only [Act.run]
    rw [forAlt_same (m := N) (fun _ => rfl) ps alt (fun x hx => (hN n hn x hx).1), h1]
  | attributes alt =>
    obtain ⟨N, hN⟩ := names_settle he (l := alt) h
    obtain ⟨qs, a', h1, h2⟩ := forAlt_good (n := N) (mk := .attribute) (alt := alt) (fun x hx => callNamed_of fun y hy => by
      rw [List.mem_singleton.1 hy]
      exact (hN N (Nat.le_refl _) x hx).2) g hv
    refine ⟨N, qs, a', fun n hn => ?_, h2⟩
    simp only [Act.run]
    rw [forAlt_same (m := N) (fun _ => rfl) ps alt (fun x hx => (hN n hn x hx).1), h1]

theorem onSrc_ok {α : Type} {x : M Parse.Src α} {t t' : Parse.Src} {a : Atm} {v : α} (h : x t = (.ok v, t')) : Parser.onSrc x ⟨t, a⟩ = (.ok v, ⟨t', a⟩) := by
  unfold Parser.onSrc M.zoom
  simp only [h]

theorem onAtm_ok {α : Type} {x : M Atm α} {t : Parse.Src} {a a' : Atm} {v : α} (h : x a = (.ok v, a')) : Parser.onAtm x ⟨t, a⟩ = (.ok v, ⟨t, a'⟩) := by
  unfold Parser.onAtm M.zoom
  simp only [h]

/-- The loop of the parser comes to its end. -/
theorem loop_settle (he : ByteSet e) (hl : src.length + 16 < 2 ^ 32) (type : Int) : ∀ (d k : Nat) (st : PState) (ps : List PElem) (a : Atm), src.length + 9 - k ≤ d →
    k ≤ src.length + 8 → Good a → (∀ p ∈ ps, Valid a p.stateidx) →
    ∃ N r a', Good a' ∧ ∀ n m, N ≤ n → d ≤ m → ∀ t, Rests src hb se t k → ∃ t', Parser.loop e n type m st ps ⟨t, a⟩ = (.ok r, ⟨t', a'⟩)
  | 0, k, _, _, _, hd, hk, _, _ => by omega
  | d + 1, k, st, ps, a, hd, hk, g, hv => by
    obtain ⟨c, k0, ⟨hk0, hc0⟩, -, hc⟩ := Det.chr (src := src) (hb := hb) (se := se) (N := 0) (k := k) hk
    simp only [hk0, hc0] at hc
    by_cases h0 : uval se (cyc src) k = 0
    · obtain ⟨qs, a', h1, h2, -⟩ := forEach_good (e := e) (n := 0) (c := .assign type) trivial g hv
      refine ⟨0, 0, a', h2, fun n m _ hm t ht => ?_⟩
      obtain ⟨m, rfl⟩ : ∃ x, m = x + 1 := ⟨m - 1, by omega⟩
      obtain ⟨t1, j1, j2⟩ := hc n (Nat.zero_le _) t ht
      refine ⟨t1, ?_⟩
      unfold Parser.loop
      rw [M.bind_ok (onSrc_ok j1), if_pos h0, forEach_same (m := 0) (c := .assign type) (fun x hx => nomatch hx), M.bind_ok (onAtm_ok h1)]
      rfl
    · have hlt : k < src.length := before (se := se) hl hk (.inl h0)
      obtain ⟨o, k1, ⟨hle, ho⟩, hk1, ht1⟩ := Det.turn (hb := hb) he hl hlt st hk
      cases o with
      | none =>
        refine ⟨src.length + 1, k1 + 1, a, g, fun n m hn hm t ht => ?_⟩
        obtain ⟨m, rfl⟩ : ∃ x, m = x + 1 := ⟨m - 1, by omega⟩
        obtain ⟨t1, j1, j2⟩ := hc n (Nat.zero_le _) t ht
        obtain ⟨t2, j3, ⟨ld, j4⟩, -⟩ := ht1 n hn t1 j2
        refine ⟨t2, ?_⟩
        unfold Parser.loop
        rw [M.bind_ok (onSrc_ok j1), if_neg h0, M.bind_ok (onSrc_ok j3)]
        simp only []
        rw [M.bind_ok (M.get_run _)]
        show (Res.ok (t2.getPosition + 1), _) = _
        rw [j4.getPosition (show k1 + 8 < 2 ^ 32 by omega)]
      | some o =>
        obtain ⟨act, st'⟩ := o
        obtain ⟨hact, hlt1⟩ := ho act st' rfl
        obtain ⟨N1, qs, a1, l1, l2, l3, l4⟩ := act_settle he hact g hv
        obtain ⟨_, k2, hk2, hk2', l5⟩ := Det.spaces (hb := hb) (se := se) hl hk1
        obtain ⟨N2, r, a2, l6, l7⟩ := loop_settle he hl type d k2 st' qs a1 (by omega) hk2' l2 l4
        refine ⟨max (max N1 N2) (src.length + 1), r, a2, l6, fun n m hn hm t ht => ?_⟩
        obtain ⟨m, rfl⟩ : ∃ x, m = x + 1 := ⟨m - 1, by omega⟩
        obtain ⟨t1, j1, j2⟩ := hc n (Nat.zero_le _) t ht
        obtain ⟨t2, j3, j4⟩ := ht1 n (by omega) t1 j2
        obtain ⟨t3, j5, j6⟩ := l5 n (by omega) t2 j4
        obtain ⟨t4, j7⟩ := l7 n m (by omega) (by omega) t3 j6
        refine ⟨t4, ?_⟩
        unfold Parser.loop
        rw [M.bind_ok (onSrc_ok j1), if_neg h0, M.bind_ok (onSrc_ok j3)]
        simp only []
        rw [M.bind_ok (onAtm_ok (l1 n (by omega))), M.bind_ok (onSrc_ok j5), j7]

/-- Adding an expression always comes to its end. -/
theorem text_settle (he : ByteSet e) (src : List Byte) (hb : ∀ b ∈ src, b < 256) (hl : src.length + 16 < 2 ^ 32) (type : Int) {a : Atm} (g : Good a) :
    ∃ N r a', Good a' ∧ ∀ n, N ≤ n → addExpression se e n type src a = (.ok r, a') := by
  cases hp : nsPos src 0 with
  | some i =>
    refine ⟨0, i + 1, a, g, fun n _ => ?_⟩
    unfold addExpression
    rw [hp]
  | none =>
    obtain ⟨N, r, a', h1, h2⟩ := loop_settle (src := src) (hb := hb) (se := se) he hl type (src.length + 9) 0 .SelectStart [{}] a (by omega) (by omega) g
      (fun q hq => .inr (by rw [List.mem_singleton.1 hq]))
    refine ⟨max N (src.length + 9), r, a', h1, fun n hn => ?_⟩
    obtain ⟨t', h3⟩ := h2 n n (by omega) (by omega) _ ⟨⟨_, TRel.init (cstrSource src hb) se _ trivial (cstrSource_start src hb)⟩, by omega⟩
    unfold addExpression
    rw [hp]
    simp only [h3]

end

end Path

end TW
