import Verif.Model.TagStack

/-!
# The tag stack refines a stack of byte strings
-/

namespace TW

open Spec

namespace TagStack

theorem memcpy_run {i : Nat} {bs : List Byte} {s : TagStack} (h : i + bs.length ≤ s.cap) :
    memcpy i bs s = (.ok (), { s with mem := fun j =>
      if i ≤ j ∧ j < i + bs.length then bs.getD (j - i) 0 else s.mem j }) := by
  unfold memcpy; rw [if_pos h]

theorem loadWord_run {i : Nat} {s : TagStack} (h : i % 8 = 0 ∧ i + 8 ≤ s.cap) :
    loadWord i s = (.ok (word s.mem i), s) := by
  unfold loadWord; rw [if_pos h]

theorem bytes_run {i n : Nat} {s : TagStack} (h : i + n ≤ s.cap) :
    bytes i n s = (.ok ((List.range n).map fun j => s.mem (i + j)), s) := by
  unfold bytes; rw [if_pos h]

/-- The room an element takes. -/
def room (n : Nat) : Nat := n + getAlign n + 8

theorem room_mod (n : Nat) : room n % 8 = 0 := by unfold room getAlign; omega
theorem room_le (n : Nat) : room n ≤ n + 15 := by unfold room getAlign; omega
theorem room_ge (n : Nat) : n + 8 ≤ room n := by unfold room; omega

/-- The layout of a stack in memory. -/
def Rep (mem : Nat → Byte) : Nat → List (List Byte) → Prop
  | pos, [] => pos = 0
  | pos, x :: xs => ∃ p, pos = p + room x.length ∧ (∀ j, j < x.length → mem (p + j) = x.getD j 0) ∧
      word mem (pos - 8) = x.length ∧ x.length < 2 ^ 63 ∧ Rep mem p xs

theorem word_congr {mem mem' : Nat → Byte} {i : Nat} (h : ∀ j, j < 8 → mem (i + j) = mem' (i + j)) :
    word mem i = word mem' i := by
  unfold word
  simp only [List.range, List.range.loop, List.foldr]
  rw [h 0 (by omega), h 1 (by omega), h 2 (by omega), h 3 (by omega), h 4 (by omega), h 5 (by omega),
    h 6 (by omega), h 7 (by omega)]

theorem Rep.congr {mem mem' : Nat → Byte} (st : List (List Byte)) : ∀ {pos : Nat},
    (∀ j, j < pos → mem' j = mem j) → Rep mem pos st → Rep mem' pos st := by
  induction st with
  | nil => intro pos _ h; exact h
  | cons x xs ih =>
    rintro pos h ⟨p, h1, h2, h3, h4, h5⟩
    have hr := room_ge x.length
    refine ⟨p, h1, fun j hj => ?_, ?_, h4, ih (fun j hj => h j (by omega)) h5⟩
    · rw [h _ (by omega), h2 j hj]
    · rw [← h3]
      exact word_congr fun j hj => h _ (by omega)

theorem Rep.mod {mem : Nat → Byte} (st : List (List Byte)) : ∀ {pos : Nat}, Rep mem pos st → pos % 8 = 0 := by
  induction st with
  | nil => intro pos h; cases h; rfl
  | cons x xs ih =>
    rintro pos ⟨p, h1, -, -, -, h5⟩
    have := ih h5
    have := room_mod x.length
    omega

theorem Rep.pos0 {mem : Nat → Byte} {st : List (List Byte)} {pos : Nat} (h : Rep mem pos st) :
    pos = 0 ↔ st = [] := by
  cases st with
  | nil => exact ⟨fun _ => rfl, fun _ => h⟩
  | cons x xs =>
    obtain ⟨p, h1, -⟩ := h
    have := room_ge x.length
    exact ⟨fun h => by omega, fun h => nomatch h⟩

/-- The state of a stack object. -/
structure Ok (limit : Nat) (s : TagStack) (st : List (List Byte)) : Prop where
  rep : Rep s.mem s.pos st
  pos : s.pos ≤ s.cap
  cap : s.cap = s.size
  min : 256 ≤ s.size
  max : s.size ≤ limit ∨ s.size = 256

/-- The elements can be read. -/
structure View (s : TagStack) (st : List (List Byte)) : Prop where
  rep : Rep s.mem s.pos st
  pos : s.pos ≤ s.cap

theorem Ok.view {limit : Nat} {s : TagStack} {st : List (List Byte)} (h : Ok limit s st) : View s st :=
  ⟨h.rep, h.pos⟩

theorem wordBytes_length (n : Nat) : (wordBytes n).length = 8 := by simp [wordBytes]

theorem word_of_bytes {mem : Nat → Byte} {i n : Nat} (hn : n < 2 ^ 64)
    (h : ∀ j, j < 8 → mem (i + j) = n / 256 ^ j % 256) : word mem i = n := by
  unfold word
  simp only [List.range, List.range.loop, List.foldr]
  rw [h 0 (by omega), h 1 (by omega), h 2 (by omega), h 3 (by omega), h 4 (by omega), h 5 (by omega),
    h 6 (by omega), h 7 (by omega)]
  simp only [Nat.reducePow] at hn ⊢
  omega

theorem grow_run {need : Nat} (hneed : need ≤ 2 ^ 62) : ∀ (fuel k : Nat) {s : TagStack}, 1 ≤ s.size →
    need ≤ s.size * 2 ^ k → k < fuel → ∃ z, grow need fuel s = (.ok (), { s with size := z }) ∧
      need ≤ z ∧ s.size ≤ z ∧ (z = s.size ∨ z < 2 * need) := by
  intro fuel
  induction fuel with
  | zero => intro k s _ _ h; omega
  | succ fuel ih =>
    intro k s h1 h2 h3
    unfold grow
    rw [M.bind_ok (M.get_run s)]
    by_cases hs : s.size < need
    · rw [if_pos hs, M.bind_ok (M.modify_run _ _)]
      have hm : s.size * 2 % 2 ^ 64 = s.size * 2 := Nat.mod_eq_of_lt (by omega)
      rw [hm]
      have hk : k ≠ 0 := by rintro rfl; simp at h2; omega
      obtain ⟨k, rfl⟩ := Nat.exists_eq_succ_of_ne_zero hk
      obtain ⟨z, g1, g2, g3, g4⟩ := ih k (s := { s with size := s.size * 2 }) (by simp only; omega)
        (by simp only; rw [Nat.mul_assoc, ← Nat.pow_succ']; exact h2) (by omega)
      refine ⟨z, g1, g2, ?_, ?_⟩
      · simp only at g3; omega
      · simp only at g4; right; omega
    · rw [if_neg hs]
      exact ⟨s.size, rfl, by omega, Nat.le_refl _, .inl rfl⟩

theorem reserve_run {limit fuel nn need : Nat} {s : TagStack} {st : List (List Byte)} (hfuel : 64 ≤ fuel)
    (hs : Ok limit s st) (hneed : 2 * need ≤ limit) (hlim : limit < 2 ^ 63) (hp : s.pos ≤ need) :
    ∃ z, reserve limit fuel nn (room nn) need s = (.ok (), { s with size := z, cap := z }) ∧
      Ok limit { s with size := z, cap := z } st ∧ need ≤ z := by
  have hmin := hs.min
  unfold reserve
  rw [M.bind_ok (M.get_run s)]
  by_cases h : s.size < need
  · rw [if_pos h]
    obtain ⟨z, g1, g2, g3, g4⟩ := grow_run (need := need) (by omega) fuel 62 (s := s) (by omega)
      (by simp only [Nat.reducePow] at hlim ⊢; omega) (by omega)
    rw [M.bind_ok g1, M.bind_ok (M.get_run _)]
    have h1 := room_ge nn
    have hz : z ≤ limit := by rcases g4 with g4 | g4 <;> omega
    rw [if_neg (by simp only; omega), if_neg (by omega), if_neg (by simp only; omega)]
    refine ⟨z, rfl, ⟨hs.rep, ?_, rfl, ?_, .inl hz⟩, g2⟩
    · simp only; omega
    · simp only; omega
  · rw [if_neg h]
    have : ({ s with size := s.size, cap := s.size } : TagStack) = s := by
      obtain ⟨mem, cap, pos, size⟩ := s
      have := hs.cap
      simp only at this
      rw [this]
    refine ⟨s.size, ?_, ?_, by omega⟩
    · rw [this]; rfl
    · rw [this]; exact hs

theorem push_run {limit fuel : Nat} {pp : List Byte} {s : TagStack} {st : List (List Byte)} (hfuel : 64 ≤ fuel)
    (hs : Ok limit s st) (hneed : 2 * (s.pos + pp.length + 16) ≤ limit) (hlim : limit < 2 ^ 63) :
    ∃ s', push limit fuel pp s = (.ok (), s') ∧ Ok limit s' (pp :: st) ∧ s'.pos ≤ s.pos + pp.length + 16 := by
  have hr := room_le pp.length
  have hr2 := room_ge pp.length
  have hmod : s.pos % 8 = 0 := Rep.mod st hs.rep
  have hrm := room_mod pp.length
  have hofs : (pp.length + getAlign pp.length + 8) % 2 ^ 64 = room pp.length := Nat.mod_eq_of_lt (by
    show room pp.length < _; omega)
  unfold push
  simp only [hofs]
  rw [M.bind_ok (M.get_run s), Nat.mod_eq_of_lt (a := s.pos + room pp.length) (by omega)]
  obtain ⟨z, g1, g2, g3⟩ := reserve_run (nn := pp.length) (need := s.pos + room pp.length) hfuel hs
    (by omega) hlim (by omega)
  rw [M.bind_ok g1, M.bind_ok (memcpy_run (by simp only; omega)), M.bind_ok (M.modify_run _ _),
    M.bind_ok (M.get_run _)]
  simp only
  rw [Nat.mod_eq_of_lt (a := s.pos + room pp.length) (by omega)]
  unfold storeWord
  rw [if_pos (by omega), memcpy_run (by rw [wordBytes_length]; simp only; omega)]
  refine ⟨_, rfl, ⟨⟨s.pos, rfl, ?_, ?_, by omega, ?_⟩, ?_, rfl, g2.min, g2.max⟩, by simp only; omega⟩
  · intro j hj
    simp only [wordBytes_length]
    rw [if_neg (by omega), if_pos (by omega)]
    congr 1; omega
  · refine word_of_bytes (by omega) fun j hj => ?_
    simp only [wordBytes_length]
    rw [if_pos (by omega)]
    rw [show s.pos + room pp.length - 8 + j - (s.pos + room pp.length - 8) = j by omega]
    unfold wordBytes
    simp [List.getD_eq_getElem?_getD, hj]
  · refine Rep.congr st (fun j hj => ?_) hs.rep
    simp only [wordBytes_length]
    rw [if_neg (by omega), if_neg (by omega)]
  · exact g3

theorem topofs_nil {s : TagStack} (hs : View s []) : topofs s = (.ok (0, 0), s) := by
  have : s.pos = 0 := hs.rep
  unfold topofs
  rw [M.bind_ok (M.get_run s), if_pos (by omega)]
  rfl

theorem topofs_cons {s : TagStack} {x : List Byte} {xs : List (List Byte)}
    (hs : View s (x :: xs)) : topofs s = (.ok (room x.length, x.length), s) := by
  have hmod := Rep.mod _ hs.rep
  have hcap := hs.pos
  obtain ⟨p, h1, h2, h3, h4, h5⟩ := hs.rep
  have hr := room_le x.length
  have hr2 := room_ge x.length
  unfold topofs
  rw [M.bind_ok (M.get_run s), if_neg (by omega)]
  rw [M.bind_ok (loadWord_run ⟨by omega, by omega⟩), h3]
  have : (x.length + getAlign x.length + 8) % 2 ^ 64 = room x.length := Nat.mod_eq_of_lt (by
    show room x.length < _; omega)
  simp only [this]
  rw [if_neg (by omega)]
  rfl

theorem top_run {s : TagStack} {st : List (List Byte)} (hs : View s st) :
    top s = (.ok st.head?, s) := by
  cases st with
  | nil =>
    unfold top
    rw [M.bind_ok (topofs_nil hs)]
    rfl
  | cons x xs =>
    have hcap := hs.pos
    have h := topofs_cons hs
    obtain ⟨p, h1, h2, h3, h4, h5⟩ := hs.rep
    have hr2 := room_ge x.length
    unfold top
    rw [M.bind_ok h]
    simp only
    rw [if_neg (by omega : ¬ room x.length = 0)]
    have hb : ((List.range x.length).map fun j => s.mem (s.pos - room x.length + j)) = x := by
      refine List.ext_getElem (by simp) fun i hi hi' => ?_
      simp only [List.getElem_map, List.getElem_range]
      rw [show s.pos - room x.length + i = p + i by omega, h2 i hi', List.getD_eq_getElem?_getD,
        List.getElem?_eq_getElem hi']
      rfl
    rw [M.bind_ok (M.get_run s), M.bind_ok (bytes_run (by omega)), hb]
    rfl

theorem pop_run {s : TagStack} {st : List (List Byte)} (hs : View s st) :
    ∃ p, pop s = (.ok (), { s with pos := p }) ∧ View { s with pos := p } st.tail ∧ p ≤ s.pos := by
  cases st with
  | nil =>
    unfold pop
    rw [M.bind_ok (topofs_nil hs)]
    simp only
    rw [M.bind_ok (M.get_run s), if_neg (by omega)]
    exact ⟨s.pos, rfl, hs, Nat.le_refl _⟩
  | cons x xs =>
    have h := topofs_cons hs
    obtain ⟨p, h1, h2, h3, h4, h5⟩ := hs.rep
    have hcap := hs.pos
    unfold pop
    rw [M.bind_ok h]
    simp only
    rw [M.bind_ok (M.get_run s), if_neg (by omega)]
    refine ⟨_, rfl, ⟨?_, ?_⟩, by omega⟩
    · simp only
      rw [show s.pos - room x.length = p by omega]
      exact h5
    · simp only; omega

theorem runOps_run {limit fuel : Nat} (hfuel : 64 ≤ fuel) (hlim : limit < 2 ^ 63) (ops : List StackOp) :
    ∀ {s : TagStack} {st : List (List Byte)}, Ok limit s st → 2 * (s.pos + stackNeed ops) ≤ limit →
    ∃ s', runOps limit fuel ops s = (.ok (stackRun ops st), s') ∧ Ok limit s' (stackEnd ops st) := by
  induction ops with
  | nil => intro s st hs _; exact ⟨s, rfl, hs⟩
  | cons op ops ih =>
    intro s st hs hn
    have key : ∀ {o : StackObs} {s' : TagStack} {st' : List (List Byte)} {x : M TagStack StackObs},
        x s = (.ok o, s') → Ok limit s' st' → 2 * (s'.pos + stackNeed ops) ≤ limit →
        ∃ s2, (x >>= fun o => runOps limit fuel ops >>= fun os => pure (o :: os)) s =
          (.ok (o :: stackRun ops st'), s2) ∧ Ok limit s2 (stackEnd ops st') := by
      intro o s' st' x h1 h2 h3
      obtain ⟨s2, h4, h5⟩ := ih h2 h3
      exact ⟨s2, by rw [M.bind_ok h1, M.bind_ok h4]; rfl, h5⟩
    unfold runOps
    cases op with
    | push bs =>
      simp only [stackNeed] at hn
      obtain ⟨s', h1, h2, h3⟩ := push_run (pp := bs) hfuel hs (by omega) hlim
      exact key (x := runOp limit fuel _) ((M.bind_ok h1).trans rfl) h2 (by omega)
    | pop =>
      simp only [stackNeed] at hn
      obtain ⟨p, h1, h2, h3⟩ := pop_run hs.view
      exact key (x := runOp limit fuel _) ((M.bind_ok h1).trans rfl)
        ⟨h2.rep, h2.pos, hs.cap, hs.min, hs.max⟩ (by simp only; omega)
    | top =>
      simp only [stackNeed] at hn
      exact key (x := runOp limit fuel _) ((M.bind_ok (top_run hs.view)).trans rfl) hs (by omega)
    | empty =>
      simp only [stackNeed] at hn
      have : s.empty = st.isEmpty := by
        unfold empty
        cases st with
        | nil => exact decide_eq_true (hs.rep.pos0.2 rfl)
        | cons x xs => exact decide_eq_false (fun h => by cases hs.rep.pos0.1 h)
      unfold stackRun
      rw [← this]
      exact key (x := runOp limit fuel .empty) rfl hs (by omega)
    | clear =>
      simp only [stackNeed] at hn
      refine key (x := runOp limit fuel .clear) rfl
        (st' := []) ⟨rfl, Nat.zero_le _, hs.cap, hs.min, hs.max⟩ ?_
      simp only [clear]; omega
    | copy mem =>
      simp only [stackNeed] at hn
      refine key (x := runOp limit fuel (.copy mem)) rfl
        (st' := st) ⟨?_, ?_, rfl, hs.min, hs.max⟩ ?_
      · refine Rep.congr st (fun j hj => ?_) hs.rep
        have hj : j < s.pos := hj
        simp only [copy, if_pos hj]
      · simp only [copy]; rw [← hs.cap]; exact hs.pos
      · simp only [copy]; omega

theorem ok_new (limit : Nat) (mem : Nat → Byte) : Ok limit (new mem) [] :=
  ⟨rfl, Nat.zero_le _, rfl, Nat.le_refl _, .inr rfl⟩

/-- Nothing that can be read has changed. -/
def Same (s s' : TagStack) : Prop := s'.mem = s.mem ∧ s'.cap = s.cap ∧ s'.pos = s.pos

theorem grow_same (need : Nat) : ∀ (fuel : Nat) {s s' : TagStack} {r : Res Unit},
    grow need fuel s = (r, s') → Same s s' ∧ ∀ c, r ≠ .stop (.throw c) := by
  intro fuel
  induction fuel with
  | zero => intro s s' r h; cases h; exact ⟨⟨rfl, rfl, rfl⟩, fun c => by rintro ⟨⟩⟩
  | succ n ih =>
    intro s s' r h
    unfold grow at h
    rw [M.bind_ok (M.get_run s)] at h
    by_cases hc : s.size < need
    · rw [if_pos hc, M.bind_ok (M.modify_run _ _)] at h
      obtain ⟨⟨h1, h2, h3⟩, h4⟩ := ih h
      exact ⟨⟨h1, h2, h3⟩, h4⟩
    · rw [if_neg hc] at h
      cases h; exact ⟨⟨rfl, rfl, rfl⟩, fun c => by rintro ⟨⟩⟩

theorem reserve_same {limit fuel nn ofs need : Nat} {s s' : TagStack} {c : Cause}
    (h : reserve limit fuel nn ofs need s = (.stop (.throw c), s')) : Same s s' := by
  unfold reserve at h
  rw [M.bind_ok (M.get_run s)] at h
  by_cases hc : s.size < need
  · rw [if_pos hc] at h
    rcases hg : grow need fuel s with ⟨r, t⟩
    obtain ⟨h1, h2⟩ := grow_same need fuel hg
    cases r with
    | stop e =>
      rw [M.bind_stop hg] at h
      cases h
      exact absurd rfl (h2 c)
    | ok a =>
      rw [M.bind_ok hg, M.bind_ok (M.get_run t)] at h
      by_cases hc1 : t.size < need
      · rw [if_pos hc1] at h; cases h; exact h1
      rw [if_neg hc1] at h
      by_cases hc2 : ofs < nn
      · rw [if_pos hc2] at h; cases h; exact h1
      rw [if_neg hc2] at h
      by_cases hc3 : limit < t.size
      · rw [if_pos hc3] at h; cases h; exact h1
      rw [if_neg hc3, M.modify_run] at h
      cases h
  · rw [if_neg hc] at h
    cases h

theorem memcpy_noThrow {i : Nat} {bs : List Byte} {s s' : TagStack} {c : Cause} :
    memcpy i bs s ≠ (.stop (.throw c), s') := by
  unfold memcpy
  intro h
  by_cases hc : i + bs.length ≤ s.cap
  · rw [if_pos hc] at h; cases h
  · rw [if_neg hc] at h; cases h

/-- A refused `push` changes nothing that can be read. -/
theorem push_same {limit fuel : Nat} {pp : List Byte} {s s' : TagStack} {c : Cause}
    (h : push limit fuel pp s = (.stop (.throw c), s')) : Same s s' := by
  unfold push at h
  rw [M.bind_ok (M.get_run s)] at h
  generalize (pp.length + getAlign pp.length + 8) % 2 ^ 64 = ofs at h
  rcases hg : reserve limit fuel pp.length ofs ((s.pos + ofs) % 2 ^ 64) s with ⟨r, t⟩
  cases r with
  | stop e =>
    rw [M.bind_stop hg] at h
    cases h
    exact reserve_same hg
  | ok a =>
    rw [M.bind_ok hg] at h
    rcases hm : memcpy s.pos pp t with ⟨r, t2⟩
    cases r with
    | stop e =>
      rw [M.bind_stop hm] at h
      cases h
      exact absurd hm memcpy_noThrow
    | ok a =>
      rw [M.bind_ok hm, M.bind_ok (M.modify_run _ _), M.bind_ok (M.get_run _)] at h
      unfold storeWord at h
      split at h
      · exact absurd h memcpy_noThrow
      · cases h

theorem runOps_view {limit fuel : Nat} (ops : List StackOp) : ∀ {s : TagStack} {st : List (List Byte)},
    View s st → (∀ op ∈ ops, op.shrinks = true) →
    (runOps limit fuel ops s).1 = .ok (stackRun ops st) := by
  induction ops with
  | nil => intro s st _ _; rfl
  | cons op ops ih =>
    intro s st hs hn
    have key : ∀ {o : StackObs} {s' : TagStack} {st' : List (List Byte)} {x : M TagStack StackObs},
        x s = (.ok o, s') → View s' st' →
        ((x >>= fun o => runOps limit fuel ops >>= fun os => pure (o :: os)) s).1 =
          .ok (o :: stackRun ops st') := by
      intro o s' st' x h1 h2
      have := ih h2 fun op h => hn op (List.mem_cons_of_mem _ h)
      rw [M.bind_ok h1, M.bind_run]
      generalize runOps limit fuel ops s' = y at this
      obtain ⟨y, s2⟩ := y
      cases this
      rfl
    have hop := hn op (List.mem_cons_self ..)
    unfold runOps
    cases op with
    | push bs => exact absurd hop Bool.false_ne_true
    | pop =>
      obtain ⟨p, h1, h2, h3⟩ := pop_run hs
      exact key (x := runOp limit fuel _) ((M.bind_ok h1).trans rfl) h2
    | top => exact key (x := runOp limit fuel _) ((M.bind_ok (top_run hs)).trans rfl) hs
    | empty =>
      have : s.empty = st.isEmpty := by
        unfold empty
        cases st with
        | nil => exact decide_eq_true (hs.rep.pos0.2 rfl)
        | cons x xs => exact decide_eq_false (fun h => by cases hs.rep.pos0.1 h)
      unfold stackRun
      rw [← this]
      exact key (x := runOp limit fuel .empty) rfl hs
    | clear => exact key (x := runOp limit fuel .clear) rfl (st' := []) ⟨rfl, Nat.zero_le _⟩
    | copy mem => exact absurd hop Bool.false_ne_true

end TagStack

end TW
