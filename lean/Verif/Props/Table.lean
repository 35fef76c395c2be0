import Verif.Model.Stm

/-!
# The state table (C37)
-/

namespace TW

deriving instance DecidableEq for Except

/-- Integer coding of an optional state (−1 is "not defined"). -/
def codeState : Option STMState → Int
  | none => -1
  | some s => s.toNat

/-- The element of the table that `stm` describes, in the coding of the builder. -/
def Elem.raw (e : Elem) : RawElem :=
  { fallback := codeState e.fallback
    miss := match e.miss with | none => -1 | some m => m.toNat
    op := match e.action with | none => -1 | some (a, _) => a.toNat
    arg := match e.action with | none => 0 | some (_, t) => t.toNat
    nofnext := e.nofnext
    next := Cc.all.map fun c => codeState (e.next c) }

/-- C37. The construction of the state table raises no exception and gives the table
that the model of the scanner uses: every state stands at its own index, and all
targets of transitions and fallbacks are defined states. -/
theorem C37_state_table : buildStm = .ok ⟨STMState.all.map fun s => (stm s).raw⟩ := by
  decide +kernel

/-- C37, index form. Every state is defined exactly once, at the index given by its
enumeration value; the indices of the successors are indices of defined states. -/
theorem C37_wellformed :
    ∃ t, buildStm = .ok t ∧ t.tab.length = 48 ∧
      (∀ s : STMState, t.tab[s.toNat]? = some (stm s).raw) ∧
      (∀ e ∈ t.tab, e.next.length = 18 ∧ (∀ n ∈ e.next, -1 ≤ n ∧ n < 48) ∧
        -1 ≤ e.fallback ∧ e.fallback < 48) ∧
      (∀ s s' : STMState, s.toNat = s'.toNat → s = s') := by
  refine ⟨_, C37_state_table, by decide, ?_, ?_, ?_⟩
  · intro s; cases s <;> rfl
  · decide +kernel
  · intro s s'
    have : ∀ s ∈ STMState.all, ∀ s' ∈ STMState.all, s.toNat = s'.toNat → s = s' := by
      decide +kernel
    exact this s (by cases s <;> decide) s' (by cases s' <;> decide)

/-- C37, lookups. The successor the scanner finds in the table for a state and a class of characters, at the indices given by
their enumeration values, is the one of the state machine; the classes have different indices. -/
theorem C37_lookup : ∃ t, buildStm = .ok t ∧
    (∀ (s : STMState) (c : Cc), ∃ e, t.tab[s.toNat]? = some e ∧ e.next[c.toNat]? = some (codeState ((stm s).next c))) ∧
    ∀ c c' : Cc, c.toNat = c'.toNat → c = c' := by
  refine ⟨_, C37_state_table, fun s c => ⟨(stm s).raw, by cases s <;> rfl, ?_⟩, ?_⟩
  · show (Cc.all.map fun c => codeState ((stm s).next c))[c.toNat]? = _
    rw [List.getElem?_map, (by cases c <;> rfl : Cc.all[c.toNat]? = some c)]
    rfl
  · have : ∀ c ∈ Cc.all, ∀ c' ∈ Cc.all, c.toNat = c'.toNat → c = c' := by decide +kernel
    exact fun c c' => this c (Cc.mem_all c) c' (Cc.mem_all c')

example : (stm .CONTENT).next .Lt = some .XMLTAG ∧ (stm .CONTENT).raw.next[Cc.Lt.toNat]? = some 19 :=
  ⟨rfl, rfl⟩

theorem STMAction.toNat_inj {a b : STMAction} (h : a.toNat = b.toNat) : a = b := by
  cases a <;> first | (cases b <;> first | rfl | exact absurd h (by decide))

theorem ElementType.toNat_inj' {a b : ElementType} (h : a.toNat = b.toNat) : a = b := by
  cases a <;> first | (cases b <;> first | rfl | exact absurd h (by decide))

theorem Err.toNat_inj {a b : Err} (h : a.toNat = b.toNat) : a = b := by
  cases a <;> first | (cases b <;> first | rfl | exact absurd h (by decide))

theorem codeState_inj {a b : Option STMState} (h : codeState a = codeState b) : a = b := by
  obtain ⟨_, _, _, _, _, k⟩ := C37_wellformed
  cases a <;> cases b
  · rfl
  · simp only [codeState] at h; omega
  · simp only [codeState] at h; omega
  · simp only [codeState] at h
    exact congrArg some (k _ _ (by omega))

/-- C37, coding. The numbers in an element of the table tell the action, the type of the items it returns, the error if there is no
transition and the states apart. -/
theorem C37_faithful {x y : Elem} (h : x.raw = y.raw) :
    x.action = y.action ∧ x.miss = y.miss ∧ x.fallback = y.fallback ∧ ∀ c, x.next c = y.next c := by
  obtain ⟨fb, ms, act, nn, nx⟩ := x
  obtain ⟨fb', ms', act', nn', nx'⟩ := y
  simp only [Elem.raw, RawElem.mk.injEq] at h
  obtain ⟨h1, h2, h3, h4, h5, h6⟩ := h
  refine ⟨?_, ?_, codeState_inj h1, fun c => ?_⟩
  · rcases act with _ | ⟨a, t⟩ <;> rcases act' with _ | ⟨a', t'⟩ <;> simp only [] at h3 h4
    · rfl
    · omega
    · omega
    · rw [STMAction.toNat_inj (by omega : a.toNat = a'.toNat), ElementType.toNat_inj' (by omega : t.toNat = t'.toNat)]
  · cases ms <;> cases ms' <;> simp only [] at h2
    · rfl
    · omega
    · omega
    · exact congrArg some (Err.toNat_inj (by omega))
  · exact codeState_inj (List.map_inj_left.1 h6 c (Cc.mem_all c))

example : (stm .TAGAVSQ).raw ≠ (stm .TAGAVDQ).raw := fun h => absurd (C37_faithful h).1 (by decide)

end TW
