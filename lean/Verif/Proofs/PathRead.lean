import Verif.Proofs.PathShow

/-!
# Reading what `tostring` writes
-/

namespace TW.Path

open TW.Spec.Path

/-- What is not a digit first. -/
def NoDigit (r : List Nat) : Prop := ∀ c, r.head? = some c → ¬(48 ≤ c ∧ c ≤ 57)

theorem readNat_stop (v : Nat) {r : List Nat} (h : NoDigit r) : readNat v r = (v, r) := by
  cases r with
  | nil => rfl
  | cons c r =>
    unfold readNat
    rw [if_neg (h c rfl)]

theorem readNat_show (n : Nat) : ∀ (v : Nat) (r : List Nat), ∃ w, readNat v (showNat n ++ r) = readNat w r ∧ (v = 0 → w = n) ∧ w = v * 10 ^ (showNat n).length + n := by
  induction n using Nat.strongRecOn with
  | ind n ih =>
    intro v r
    by_cases c : n < 10
    · have h : showNat n = [48 + n] := by rw [showNat, if_pos c]
      rw [h]
      refine ⟨v * 10 + n, ?_, fun h => by omega, by simp⟩
      show readNat v ((48 + n) :: r) = _
      rw [readNat, if_pos ⟨by omega, by omega⟩, show v * 10 + (48 + n - 48) = v * 10 + n by omega]
    · have h : showNat n = showNat (n / 10) ++ [48 + n % 10] := by rw [showNat, if_neg c]
      obtain ⟨w, h1, h2, h3⟩ := ih (n / 10) (by omega) v ((48 + n % 10) :: r)
      rw [h]
      refine ⟨w * 10 + n % 10, ?_, fun h => ?_, ?_⟩
      · rw [List.append_assoc]
        show readNat v (showNat (n / 10) ++ (48 + n % 10) :: r) = _
        rw [h1, readNat, if_pos ⟨by omega, by omega⟩, show w * 10 + (48 + n % 10 - 48) = w * 10 + n % 10 by omega]
      · rw [h2 h]; omega
      · rw [h3, List.length_append, List.length_singleton, Nat.pow_succ, Nat.add_mul, Nat.mul_assoc]
        omega

theorem readNat_showNat (n : Nat) {r : List Nat} (h : NoDigit r) : readNat 0 (showNat n ++ r) = (n, r) := by
  obtain ⟨w, h1, h2, _⟩ := readNat_show n 0 r
  rw [h1, h2 rfl, readNat_stop n h]

theorem showNat_head (n : Nat) : ∃ c s, showNat n = c :: s ∧ 48 ≤ c ∧ c ≤ 57 := by
  induction n using Nat.strongRecOn with
  | ind n ih =>
    by_cases c : n < 10
    · exact ⟨48 + n, [], by rw [showNat, if_pos c], by omega, by omega⟩
    · obtain ⟨d, s, h1, h2, h3⟩ := ih (n / 10) (by omega)
      exact ⟨d, s ++ [48 + n % 10], by rw [showNat, if_neg c, h1]; rfl, h2, h3⟩

theorem strip_append (p r : List Nat) : strip p (p ++ r) = some r := by
  unfold strip
  rw [if_pos (by simp), List.drop_left]

theorem strip_head {x y : Nat} {p r : List Nat} (h : x ≠ y) : strip (x :: p) (y :: r) = none := by
  unfold strip
  rw [if_neg (by simp [h])]

theorem strip_second {w x y : Nat} {p r : List Nat} (h : x ≠ y) : strip (w :: x :: p) (w :: y :: r) = none := by
  unfold strip
  rw [if_neg (by simp [h])]

theorem readInt_showInt (i : Int) {r : List Nat} (h : NoDigit r) : readInt (showInt i ++ r) = (i, r) := by
  cases i with
  | ofNat n =>
    show readInt (showNat n ++ r) = _
    obtain ⟨c, s, h1, h2, h3⟩ := showNat_head n
    unfold readInt
    have k : strip [45] (showNat n ++ r) = none := by
      rw [h1]
      exact strip_head (by omega)
    rw [k]
    simp only [readNat_showNat n h]
    rfl
  | negSucc n =>
    show readInt ([45] ++ (showNat (n + 1) ++ r)) = _
    unfold readInt
    rw [strip_append]
    simp only [readNat_showNat (n + 1) h]
    rfl

/-- No blank and no slash. -/
def Plain (l : List Nat) : Prop := ∀ c ∈ l, c ≠ 32 ∧ c ≠ 47

instance (l : List Nat) : Decidable (Plain l) := inferInstanceAs (Decidable (∀ c ∈ l, c ≠ 32 ∧ c ≠ 47))

theorem name_plain (m : Mask) : Plain m.seekopName := by
  unfold Mask.seekopName
  repeat' split
  all_goals decide

theorem take_plain {l r : List Nat} (h : Plain l) : (l ++ 32 :: r).takeWhile (· ≠ 32) = l ∧ (l ++ 32 :: r).dropWhile (· ≠ 32) = 32 :: r := by
  induction l with
  | nil => exact ⟨by simp, by simp⟩
  | cons c l ih =>
    have hc := (h c (List.mem_cons_self ..)).1
    obtain ⟨h1, h2⟩ := ih fun d hd => h d (List.mem_cons_of_mem _ hd)
    rw [List.cons_append]
    constructor
    · rw [List.takeWhile_cons_of_pos (by simpa using hc), h1]
    · rw [List.dropWhile_cons_of_pos (by simpa using hc), h2]

theorem take_quoted {l r : List Nat} (h : 39 ∉ l) : (l ++ 39 :: r).takeWhile (· ≠ 39) = l ∧ (l ++ 39 :: r).dropWhile (· ≠ 39) = 39 :: r := by
  induction l with
  | nil => exact ⟨by simp, by simp⟩
  | cons c l ih =>
    have hc : c ≠ 39 := fun k => h (by rw [k]; exact List.mem_cons_self ..)
    obtain ⟨h1, h2⟩ := ih fun hd => h (List.mem_cons_of_mem _ hd)
    rw [List.cons_append]
    constructor
    · rw [List.takeWhile_cons_of_pos (by simpa using hc), h1]
    · rw [List.dropWhile_cons_of_pos (by simpa using hc), h2]

/-- What the text tells of a state. -/
def SState.shown (i : Nat) (s : SState) : Shown :=
  { index := i, next := s.st.next, link := s.st.link, follow := s.st.core.follow, name := s.st.core.mask.seekopName, source := s.src,
    type := s.st.core.typeidx }

theorem readType_show (t : Int) (r : List Nat) :
    readType ((if t ≠ 0 then ascii " =>" ++ showInt t else []) ++ 10 :: r) = (t, 10 :: r) := by
  have hn : NoDigit (10 :: r) := fun c hc => by cases hc; omega
  unfold readType
  by_cases c : t = 0
  · rw [if_neg (by simpa using c), List.nil_append, show (chars " =>") = 32 :: [61, 62] by decide, strip_head (by decide), c]
  · rw [if_pos c, List.append_assoc, show ascii " =>" = chars " =>" from rfl, strip_append]
    exact readInt_showInt t hn

/-- The text of a source form. -/
def showSource : Option (List Nat) → List Nat
  | some k => ascii " '" ++ k ++ ascii "'"
  | none => ascii " (null)"

theorem readSource_show {src : Option (List Nat)} (h : ∀ k, src = some k → 39 ∉ k) (r : List Nat) :
    readSource (showSource src ++ r) = some (src, r) := by
  cases src with
  | none =>
    have k1 : strip [32, 39] (showSource none ++ r) = none := strip_second (by decide)
    have k2 : strip (chars " (null)") (showSource none ++ r) = some r := strip_append (chars " (null)") r
    simp only [readSource, k1, k2]
    rfl
  | some k =>
    have k1 : strip [32, 39] (showSource (some k) ++ r) = some (k ++ 39 :: r) := by
      have := strip_append [32, 39] (k ++ 39 :: r)
      rw [← this]
      congr 1
      show ascii " '" ++ k ++ ascii "'" ++ r = _
      rw [List.append_assoc, List.append_assoc, show ascii " '" = [32, 39] by decide, show ascii "'" = [39] by decide]
      rfl
    have k2 : strip [39] (39 :: r) = some r := strip_append [39] r
    simp only [readSource, k1, (take_quoted (h k rfl)).1, (take_quoted (h k rfl)).2, k2]
    rfl

theorem readRef_some (sign : List Nat) (n : Nat) {r : List Nat} (h : NoDigit r) : readRef sign (sign ++ showNat n ++ r) = (some n, r) := by
  unfold readRef
  rw [List.append_assoc, strip_append]
  simp only [readNat_showNat n h]

theorem readRef_none {sign r : List Nat} (h : strip sign r = none) : readRef sign r = (none, r) := by
  unfold readRef
  rw [h]

theorem readFlag_show (b : Bool) {r : List Nat} (h : ∀ c, r.head? = some c → c ≠ 47) : readFlag ((if b then [47] else []) ++ r) = (b, r) := by
  unfold readFlag
  cases b with
  | true => rw [if_pos rfl, strip_append]
  | false =>
    rw [if_neg (by decide), List.nil_append]
    cases r with
    | nil => rfl
    | cons c r => rw [strip_head (fun k => h c rfl k.symm)]

theorem noDigit_blank (r : List Nat) : NoDigit (32 :: r) := fun c hc => by cases hc; omega

theorem readLine_show (self : List Nat) (i : Nat) (s : SState) (hs : ∀ k, s.src = some k → 39 ∉ k) (hr : s.st.core.cntEnd ≤ 0) (r : List Nat) :
    readLine (showNat i ++ ascii ": " ++ s.tostring self ++ [10] ++ r) = some (s.shown i, r) := by
  -- the parts behind the links
  generalize hty : (if s.st.core.typeidx ≠ 0 then ascii " =>" ++ showInt s.st.core.typeidx else []) ++ 10 :: r = ty
  generalize hso : showSource s.src ++ ty = so
  obtain ⟨so', hso'⟩ : ∃ so', so = 32 :: so' := by
    cases hc : s.src with
    | none => rw [hc] at hso; exact ⟨_, hso.symm⟩
    | some k => rw [hc] at hso; exact ⟨_, hso.symm⟩
  generalize hfl : (if s.st.core.follow then [47] else []) ++ (s.st.core.mask.seekopName ++ so) = fl
  have hflag : ∀ c, (s.st.core.mask.seekopName ++ so).head? = some c → c ≠ 47 := by
    intro c hc
    have hp := name_plain s.st.core.mask
    cases hm : s.st.core.mask.seekopName with
    | nil =>
      rw [hm, hso'] at hc
      cases hc
      decide
    | cons d m =>
      rw [hm] at hc hp
      cases hc
      exact (hp _ (List.mem_cons_self ..)).2
  have hcomm : ∀ b : Bool, (if b then [47] else []) ++ [47] = [47] ++ (if b then [47] else ([] : List Nat)) := by decide
  generalize hlk : (match s.st.link with | some i => ascii " ~" ++ showNat i | none => []) ++ (chars " /" ++ fl) = lk
  generalize hnx : (match s.st.next with | some i => ascii " ->" ++ showNat i | none => []) ++ lk = nx
  have htext : showNat i ++ ascii ": " ++ s.tostring self ++ [10] ++ r = showNat i ++ (chars ": " ++ nx) := by
    rw [← hnx, ← hlk, ← hfl, ← hso, ← hty]
    unfold SState.tostring
    rw [if_neg (Int.not_lt.2 hr), show chars " /" = [32] ++ [47] by decide, show ascii ": " = chars ": " from rfl, List.append_nil]
    have hb := hcomm s.st.core.follow
    generalize (if s.st.core.follow = true then [47] else ([] : List Nat)) = fo at *
    cases s.src with
    | none =>
      simp only [showSource, List.append_assoc]
      congr 5
      rw [← List.append_assoc, hb, List.append_assoc]
      rfl
    | some k =>
      simp only [showSource, List.append_assoc]
      congr 5
      rw [← List.append_assoc, hb, List.append_assoc]
      rfl
  have hlk' : ∃ x l', lk = 32 :: x :: l' ∧ x ≠ 45 := by
    cases hc : s.st.link with
    | none => rw [hc] at hlk; exact ⟨47, fl, hlk.symm, by decide⟩
    | some k => rw [hc] at hlk; exact ⟨126, _, hlk.symm, by decide⟩
  obtain ⟨x, l', hl1, hx⟩ := hlk'
  have hnx' : NoDigit (chars ": " ++ nx) := fun c hc => by cases hc; decide
  have h1 : readRef (chars " ->") nx = (s.st.next, lk) := by
    rw [← hnx]
    cases hc : s.st.next with
    | none =>
      refine readRef_none ?_
      rw [List.nil_append, hl1]
      exact strip_second (fun k => hx k.symm)
    | some k => exact readRef_some (chars " ->") k (by rw [hl1]; exact noDigit_blank _)
  have h2 : readRef (chars " ~") lk = (s.st.link, chars " /" ++ fl) := by
    rw [← hlk]
    cases hc : s.st.link with
    | none => exact readRef_none (strip_second (by decide))
    | some k => exact readRef_some (chars " ~") k (noDigit_blank _)
  have h3 : readFlag fl = (s.st.core.follow, s.st.core.mask.seekopName ++ so) := by
    rw [← hfl]
    exact readFlag_show _ hflag
  have h4 := take_plain (r := so') (name_plain s.st.core.mask)
  rw [← hso'] at h4
  have h5 : readSource so = some (s.src, ty) := by
    rw [← hso]
    exact readSource_show hs ty
  have h6 : readType ty = (s.st.core.typeidx, 10 :: r) := by
    rw [← hty]
    exact readType_show _ _
  rw [htext]
  unfold readLine
  simp only [readNat_showNat i hnx', strip_append, h1, h2, h3, h4.1, h4.2, h5, h6, Option.bind_eq_bind, Option.bind_some]
  rw [show (10 :: r) = [10] ++ r from rfl, strip_append]
  rfl

theorem readLines_show (self : List Nat) : ∀ (a : List SState) (i n : Nat), (∀ s ∈ a, ∀ k, s.src = some k → 39 ∉ k) →
    (∀ s ∈ a, s.st.core.cntEnd ≤ 0) → a.length ≤ n → readLines n (SAtm.showFrom self i a) = some (a.mapIdx fun j s => s.shown (i + j))
  | [], _, n, _, _, _ => by cases n <;> rfl
  | s :: a, i, 0, _, _, hn => absurd hn (by simp)
  | s :: a, i, n + 1, hs, hr, hn => by
    have ih := readLines_show self a (i + 1) n (fun t ht => hs t (List.mem_cons_of_mem _ ht)) (fun t ht => hr t (List.mem_cons_of_mem _ ht)) (by simpa using hn)
    have hl := readLine_show self i s (hs s (List.mem_cons_self ..)) (hr s (List.mem_cons_self ..)) (SAtm.showFrom self (i + 1) a)
    obtain ⟨c, d, hc, _⟩ := showNat_head i
    have hne : showNat i ++ ascii ": " ++ s.tostring self ++ [10] ++ SAtm.showFrom self (i + 1) a =
        c :: (d ++ ascii ": " ++ s.tostring self ++ [10] ++ SAtm.showFrom self (i + 1) a) := by rw [hc]; rfl
    show readLines (n + 1) (showNat i ++ ascii ": " ++ s.tostring self ++ [10] ++ SAtm.showFrom self (i + 1) a) = _
    rw [hne] at hl ⊢
    unfold readLines
    rw [hl]
    simp only [Option.bind_eq_bind, Option.bind_some, ih]
    rw [List.mapIdx_cons]
    show some _ = some _
    have hf : (fun j s => SState.shown (i + 1 + j) s) = fun j s => SState.shown (i + (j + 1)) s := by
      funext j t
      rw [Nat.add_assoc, Nat.add_comm 1 j]
    rw [hf]
    rfl

end TW.Path
