import Verif.Model.StaticBuffer
import Verif.Model.Charset
import Verif.Spec.Buffer
import Verif.Spec.Text

/-!
# StaticBuffer and Encoder
-/

namespace TW

open Spec

namespace SBuf

/-- Sane buffer: the fill count is within the capacity and the capacity within the
memory block. -/
structure Ok (b : SBuf) : Prop where
  pos : b.pos ≤ b.size
  mem : b.size ≤ b.ar.length

theorem content_length {b : SBuf} (h : b.Ok) : b.content.length = b.pos := by
  have := h.pos; have := h.mem
  simp [content]; omega

theorem content_writeAt (ar cc : List Byte) (i : Nat) (h : i + cc.length ≤ ar.length) :
    (writeAt ar i cc).take (i + cc.length) = ar.take i ++ cc := by
  unfold writeAt
  rw [List.take_append_of_le_length (by simp; omega),
    List.take_of_length_le (by simp; omega)]

theorem writeAt_length (ar cc : List Byte) (i : Nat) (h : i + cc.length ≤ ar.length) :
    (writeAt ar i cc).length = ar.length := by
  simp [writeAt]; omega

theorem push_back_run {b : SBuf} (h : b.Ok) (c : Byte) :
    ∃ b', push_back c b = (.ok (), b') ∧ b'.Ok ∧ b'.size = b.size ∧ b'.ar.length = b.ar.length ∧
      b'.content = (b.content ++ [c]).take b.size ∧
      b'.overflow = (b.overflow || decide (b.size < b.content.length + 1)) ∧
      (∀ j, b.size ≤ j → b'.ar[j]? = b.ar[j]?) := by
  have hp := h.pos
  have hm := h.mem
  have hl := content_length h
  unfold push_back
  by_cases hs : b.pos < b.size
  · rw [if_pos hs, if_pos (by omega)]
    refine ⟨_, rfl, ⟨by simp; omega, by simp; omega⟩, rfl, by simp, ?_, ?_, ?_⟩
    · rw [List.take_of_length_le (by simp; omega)]
      simp only [content]
      rw [List.take_set, List.take_add_one]
      have h1 : b.ar[b.pos]? = some b.ar[b.pos] := List.getElem?_eq_getElem (by omega)
      rw [h1]
      simp only [Option.toList_some]
      rw [List.set_append_right _ _ (by simp; omega), List.length_take,
        show b.pos - min b.pos b.ar.length = 0 by omega]
      rfl
    · simp; intro; omega
    · intro j hj
      simp only [List.getElem?_set]
      rw [if_neg (by omega)]
  · rw [if_neg hs]
    refine ⟨_, rfl, ⟨hp, hm⟩, rfl, rfl, ?_, ?_, fun _ _ => rfl⟩
    · rw [List.take_append_of_le_length (by omega), List.take_of_length_le (by omega)]
      rfl
    · simp; right; omega

/-- Several pushes are one append. -/
theorem pushAll_run (cc : List Byte) : ∀ {b : SBuf}, b.Ok →
    ∃ b', pushAll cc b = (.ok (), b') ∧ b'.Ok ∧ b'.size = b.size ∧ b'.ar.length = b.ar.length ∧
      b'.content = (b.content ++ cc).take b.size ∧
      b'.overflow = (b.overflow || decide (b.size < b.content.length + cc.length)) ∧
      (∀ j, b.size ≤ j → b'.ar[j]? = b.ar[j]?) := by
  induction cc with
  | nil =>
    intro b h
    have := content_length h
    have := h.pos
    refine ⟨b, rfl, h, rfl, rfl, ?_, ?_, fun _ _ => rfl⟩
    · rw [List.append_nil, List.take_of_length_le (by omega)]
    · simp; intro; omega
  | cons c cc ih =>
    intro b h
    obtain ⟨b1, r1, o1, s1, l1, c1, v1, m1⟩ := push_back_run h c
    obtain ⟨b2, r2, o2, s2, l2, c2, v2, m2⟩ := ih o1
    have hl1 := content_length o1
    have hl := content_length h
    have hp1 := o1.pos
    have hp := h.pos
    have hc1 : b1.content.length = min b.size (b.content.length + 1) := by
      rw [c1]; simp
    refine ⟨b2, ?_, o2, by omega, by omega, ?_, ?_, ?_⟩
    · show (push_back c >>= fun _ => pushAll cc) b = _
      rw [M.bind_ok r1, r2]
    · rw [c2, c1, s1]
      by_cases hfit : b.content.length + 1 ≤ b.size
      · rw [List.take_of_length_le (l := b.content ++ [c]) (by simp; omega)]
        simp
      · have : b.content.length = b.size := by omega
        rw [List.take_append_of_le_length (by simp; omega), List.take_append_of_le_length (by omega),
          List.take_append_of_le_length (by omega), List.take_take]
        simp
    · rw [v2, v1, s1, hc1, Bool.or_assoc]
      congr 1
      by_cases hfit : b.content.length + 1 ≤ b.size
      · rw [show min b.size (b.content.length + 1) = b.content.length + 1 by omega]
        simp only [List.length_cons]
        have : decide (b.size < b.content.length + 1) = false := by simp; omega
        rw [this, Bool.false_or]
        congr 1
        exact propext ⟨fun _ => by omega, fun _ => by omega⟩
      · have : decide (b.size < b.content.length + 1) = true := by simp; omega
        rw [this]
        simp; omega
    · intro j hj
      rw [m2 j (by omega), m1 j hj]

theorem append_run {b : SBuf} (h : b.Ok) (cc : List Byte) (hw : b.size + cc.length < 2 ^ 64) :
    ∃ b', append cc b = (.ok (), b') ∧ b'.Ok ∧ b'.size = b.size ∧ b'.ar.length = b.ar.length ∧
      b'.content = (b.content ++ cc).take b.size ∧
      b'.overflow = (b.overflow || decide (b.size < b.content.length + cc.length)) := by
  have hp := h.pos
  have hm := h.mem
  have hl := content_length h
  unfold append
  rw [Nat.mod_eq_of_lt (show b.pos + cc.length < 2 ^ 64 by omega),
    show (b.size + 2 ^ 64 - b.pos) % 2 ^ 64 = b.size - b.pos by omega]
  by_cases hs : b.size < b.pos + cc.length
  · simp only [hs, decide_true, if_true]
    rw [if_pos (by constructor <;> omega)]
    have hlen : (List.take (b.size - b.pos) cc).length = b.size - b.pos := by simp; omega
    refine ⟨_, rfl, ⟨by simp; omega, by simp; rw [writeAt_length _ _ _ (by omega)]; omega⟩, rfl,
      by simp; rw [writeAt_length _ _ _ (by omega)], ?_, ?_⟩
    · simp only [content]
      have := content_writeAt b.ar (List.take (b.size - b.pos) cc) b.pos (by omega)
      rw [hlen] at this
      rw [this, List.take_append, List.length_take, List.take_take,
        show min b.size b.pos = b.pos by omega, show min b.pos b.ar.length = b.pos by omega]
    · simp; right; omega
  · simp only [hs, decide_false, Bool.false_eq_true, if_false]
    rw [if_pos (by constructor <;> omega)]
    simp only [List.take_length]
    refine ⟨_, rfl, ⟨by simp; omega, by simp; rw [writeAt_length _ _ _ (by omega)]; omega⟩, rfl,
      by simp; rw [writeAt_length _ _ _ (by omega)], ?_, ?_⟩
    · simp only [content]
      rw [content_writeAt _ _ _ (by omega), List.take_of_length_le (l := _ ++ cc) (by simp; omega)]
    · simp; intro; omega

theorem pushN_eq (n : Nat) (c : Byte) (b : SBuf) : pushN n c b = pushAll (List.replicate n c) b := by
  induction n generalizing b with
  | zero => rfl
  | succ n ih =>
    show (push_back c >>= fun _ => pushN n c) b = (push_back c >>= fun _ => pushAll (List.replicate n c)) b
    rw [M.bind_run, M.bind_run]
    generalize push_back c b = r
    rcases r with ⟨r, b'⟩
    cases r
    · exact ih b'
    · rfl

theorem resize_run {b : SBuf} (h : b.Ok) (n : Nat) (c : Byte) :
    ∃ b', resize n c b = (.ok (), b') ∧ b'.Ok ∧ b'.size = b.size ∧ b'.ar.length = b.ar.length ∧
      b'.content = (b.content ++ List.replicate (n - b.content.length) c).take (min n b.size) ∧
      b'.overflow = b.overflow := by
  have hp := h.pos
  have hm := h.mem
  have hl := content_length h
  unfold resize
  by_cases hn : n < b.pos
  · rw [if_pos hn]
    refine ⟨_, rfl, ⟨by simp; omega, hm⟩, rfl, rfl, ?_, rfl⟩
    rw [show n - b.content.length = 0 by omega, show min n b.size = n by omega]
    simp only [content, List.replicate_zero, List.append_nil, List.take_take]
    rw [show min n b.pos = n by omega]
  · rw [if_neg hn]
    simp only
    rw [show (if b.size < n then b.size else n) = min n b.size by split <;> omega, pushN_eq]
    obtain ⟨b', r, o, s, l, c', v, -⟩ := pushAll_run (List.replicate (min n b.size - b.pos) c) h
    refine ⟨b', r, o, s, l, ?_, ?_⟩
    · rw [c', hl, List.take_of_length_le (by simp; omega), List.take_append,
        List.take_of_length_le (by omega), List.take_replicate]
      congr 2
      omega
    · rw [v]; simp; intro; omega

/-- One operation of the model. -/
def exec : BufOp → M SBuf Unit
  | .push c => push_back c
  | .append cc => append cc
  | .resize n (some c) => resize n c
  | .resize n none => resize n
  | .clear => clear

end SBuf

/-! ## Encoder -/

theorem hexDigit_eq (d : Nat) (hd : d < 16) : hexDigit d = Spec.hexDigit d := by
  unfold hexDigit Spec.hexDigit
  split <;> omega

theorem hexRev_isHex (k : Nat) : ∀ n, 0 < n → n < 16 ^ k → IsHex (hexRev k n).reverse n := by
  induction k with
  | zero => intro n h1 h2; simp at h2; omega
  | succ k ih =>
    intro n h1 h2
    rw [hexRev, if_neg (by omega), List.reverse_cons, hexDigit_eq _ (by omega)]
    by_cases hn : n < 16
    · rw [show n / 16 = 0 by omega, show n % 16 = n by omega]
      have : hexRev k 0 = [] := by cases k <;> simp [hexRev]
      rw [this]
      exact IsHex.digit n h1 hn
    · have := IsHex.snoc _ (n / 16) (n % 16) (ih (n / 16) (by omega)
        (by rw [Nat.pow_succ] at h2; omega)) (by omega)
      rw [show n / 16 * 16 + n % 16 = n by omega] at this
      exact this

theorem hexRev_length (k : Nat) : ∀ n m, n < 16 ^ m → (hexRev k n).length ≤ m := by
  induction k with
  | zero => intro n m _; simp [hexRev]
  | succ k ih =>
    intro n m h
    rw [hexRev]
    split
    · simp
    · cases m with
      | zero => simp at h; omega
      | succ m =>
        have := ih (n / 16) m (by rw [Nat.pow_succ] at h; omega)
        simp; omega

theorem hexRev_range (k : Nat) : ∀ n, ∀ b ∈ hexRev k n, 48 ≤ b ∧ b ≤ 102 := by
  induction k with
  | zero => intro n b hb; simp [hexRev] at hb
  | succ k ih =>
    intro n b hb
    rw [hexRev] at hb
    split at hb
    · simp at hb
    · simp only [List.mem_cons] at hb
      rcases hb with rfl | hb
      · unfold hexDigit; split <;> omega
      · exact ih _ b hb

/-- The text the encoder writes. -/
def entityText (c : Nat) : List Byte := [38, 35, 120] ++ (hexDigitsRev c).reverse ++ [59]

theorem entityText_isEntity (c : Nat) (h0 : 0 < c) (h : c < 2 ^ 32) : IsEntity (entityText c) c :=
  ⟨_, hexRev_isHex 32 c h0 (by omega), rfl⟩

theorem entityText_length (c : Nat) (h : c < 2 ^ 32) : (entityText c).length ≤ 12 := by
  have := hexRev_length 32 c 8 (by omega)
  simp [entityText, hexDigitsRev]; omega

theorem entityText_ne0 (c : Nat) : ∀ b ∈ entityText c, b ≠ 0 := by
  intro b hb
  simp only [entityText, hexDigitsRev, List.mem_append, List.mem_cons, List.mem_reverse,
    List.not_mem_nil, or_false] at hb
  rcases hb with (h | h) | h
  · omega
  · have := hexRev_range 32 c b h; omega
  · omega

theorem pushAll_append (a b : List Byte) (s : SBuf) :
    SBuf.pushAll (a ++ b) s = (SBuf.pushAll a >>= fun _ => SBuf.pushAll b) s := by
  induction a generalizing s with
  | nil => rfl
  | cons c a ih =>
    show (SBuf.push_back c >>= fun _ => SBuf.pushAll (a ++ b)) s
      = ((SBuf.push_back c >>= fun _ => SBuf.pushAll a) >>= fun _ => SBuf.pushAll b) s
    simp only [M.bind_run]
    generalize SBuf.push_back c s = r
    rcases r with ⟨r, s'⟩
    cases r
    · simp only
      rw [ih s', M.bind_run]
    · rfl

/-- Complete description of `encode`. -/
theorem encode_run (c : Nat) (mem : List Byte) (n : Nat) (h : n ≤ mem.length) :
    ∃ mem', encode c mem n = (.ok (decide ((entityText c).length + 1 ≤ n)), mem') ∧
      mem'.length = mem.length ∧ (∀ j, n ≤ j → mem'[j]? = mem[j]?) ∧
      mem'.take (min n ((entityText c).length + 1)) = (entityText c ++ [0]).take n := by
  have hok : (SBuf.foreign mem n).Ok := ⟨Nat.zero_le _, h⟩
  obtain ⟨b, r, o, s, l, ct, v, m⟩ := SBuf.pushAll_run (entityText c ++ [0]) hok
  refine ⟨b.ar, ?_, l, m, ?_⟩
  · have hrun : encode c mem n = (let run : M SBuf Bool := (SBuf.pushAll (entityText c ++ [0]) >>= fun _ => M.get >>= fun b =>
        pure (!b.overflow))
        match run (SBuf.foreign mem n) with | (r, b) => (r, b.ar)) := by
      unfold encode
      congr 1
      have e1 : entityText c ++ [0]
          = 38 :: 35 :: 120 :: ((hexDigitsRev c).reverse ++ [59, 0]) := by
        simp [entityText]
      rw [e1]
      generalize SBuf.foreign mem n = b0
      simp only [SBuf.pushAll, M.bind_run]
      generalize SBuf.push_back 38 b0 = r1
      rcases r1 with ⟨r1, b1⟩
      cases r1 <;> simp only
      generalize SBuf.push_back 35 b1 = r2
      rcases r2 with ⟨r2, b2⟩
      cases r2 <;> simp only
      generalize SBuf.push_back 120 b2 = r3
      rcases r3 with ⟨r3, b3⟩
      cases r3 <;> simp only
      rw [pushAll_append, M.bind_run]
      generalize SBuf.pushAll (hexDigitsRev c).reverse b3 = r4
      rcases r4 with ⟨r4, b4⟩
      cases r4 <;> simp only [SBuf.pushAll, M.bind_run]
      generalize SBuf.push_back 59 b4 = r5
      rcases r5 with ⟨r5, b5⟩
      cases r5 <;> simp only
      generalize SBuf.push_back 0 b5 = r6
      rcases r6 with ⟨r6, b6⟩
      cases r6 <;> rfl
    rw [hrun]
    simp only [M.bind_run, r, M.get_run, M.pure_run]
    rw [v]
    simp only [SBuf.foreign, SBuf.content, List.take_zero, List.length_nil, Bool.false_or,
      List.length_append, List.length_cons, Nat.zero_add]
    congr 2
    rw [← decide_not]
    congr 1
    exact propext ⟨fun _ => by omega, fun _ => by omega⟩
  · have hlen := SBuf.content_length o
    rw [ct] at hlen
    simp only [SBuf.foreign, SBuf.content, List.take_zero, List.nil_append, List.length_take,
      List.length_append, List.length_cons, List.length_nil, Nat.zero_add] at hlen ct
    rw [← hlen] at ct
    exact ct

theorem encodeStr_eq (c : Nat) (h : c < 2 ^ 32) : encodeStr c = entityText c := by
  obtain ⟨mem', r, l, -, t⟩ := encode_run c (List.replicate 32 0) 32 (by simp)
  have h12 := entityText_length c h
  unfold encodeStr
  rw [r]
  simp only
  rw [List.take_of_length_le (l := entityText c ++ [0]) (by simp; omega),
    show min 32 ((entityText c).length + 1) = (entityText c).length + 1 by omega] at t
  rw [← List.take_append_drop ((entityText c).length + 1) mem', t, List.append_assoc,
    List.takeWhile_append_of_pos]
  · simp
  · intro b hb
    have := entityText_ne0 c b hb
    simpa using this

/-! ## ISO Latin -/

theorem invcode_big (p c : Nat) (h : 255 < c) : invcode p c = 0 := by
  have h1 : ¬ c ≤ 128 := by omega
  have h2 : ¬ c ≤ 255 := by omega
  have h3 : 1 <<< 2 ≤ c := by show 4 ≤ c; omega
  simp only [invcode, h1, h2, h3, if_true, if_false]

theorem isolatin_tables (p c : Nat) (hp : 1 ≤ p ∧ p ≤ 9) (hc : c < 256) (h : invcode p c ≠ 0) :
    ucharcode p (invcode p c) = c ∧ invcode p c < 256 := by
  have : ∀ p : Fin 10, ∀ c : Fin 256, 1 ≤ p.1 → invcode p.1 c.1 ≠ 0 →
      ucharcode p.1 (invcode p.1 c.1) = c.1 ∧ invcode p.1 c.1 < 256 := by decide +kernel
  exact this ⟨p, by omega⟩ ⟨c, hc⟩ hp.1 h

theorem isolatin_low (p b : Nat) (hp : 1 ≤ p ∧ p ≤ 9) (hb : b < 256)
    (h : ucharcode p b < 256) (h0 : ucharcode p b ≠ 0) : invcode p (ucharcode p b) = b := by
  have : ∀ p : Fin 10, ∀ b : Fin 256, 1 ≤ p.1 → ucharcode p.1 b.1 < 256 → ucharcode p.1 b.1 ≠ 0 →
      invcode p.1 (ucharcode p.1 b.1) = b.1 := by decide +kernel
  exact this ⟨p, by omega⟩ ⟨b, hb⟩ hp.1 h h0

end TW
