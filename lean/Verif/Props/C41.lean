import Verif.Model.Serialization
import Verif.Model.SaveComponent
import Verif.Lemmas.Split
import Verif.Props.C23

/-!
# C41: declarations survive encode and decode

*Writing the clock declarations of a component and reading them back declares the same clock names with pairwise
different indices 1..n.*

It holds for names that can be declared, which are the names of all components that are read or saved.  The integer
declarations of a component are lost (`C41_ints_lost`).
-/

namespace Reveaal

/-- A clock name that can be declared: not empty, and without the separators of declarations -/
def IsClockName (n : String) : Prop :=
  n ≠ "" ∧ ' ' ∉ n.toList ∧ ',' ∉ n.toList ∧ ';' ∉ n.toList ∧ '\n' ∉ n.toList

/-- The names of all clocks -/
def Decls.clockNames (d : Decls) : List String := d.clocks.map (·.1)

/-! ## Reading one line of clocks -/

/-- The text between the word `clock` and the semicolon -/
def clockList (n : List Char) (ns : List (List Char)) : List Char := n ++ ns.flatMap fun m => [',', ' '] ++ m

theorem clockList_words : ∀ (ns : List (List Char)) (n : List Char), (∀ m ∈ n :: ns, ' ' ∉ m) →
    ∃ ws, splitOnChar ' ' (clockList n ns) = ws ∧
      List.Forall₂ (fun w m => w = m ∨ w = m ++ [',']) ws (n :: ns)
  | [], n, h => by
    refine ⟨[n], ?_, .cons (.inl rfl) .nil⟩
    rw [clockList, List.flatMap_nil, List.append_nil]
    exact splitOnChar_single (h n List.mem_cons_self)
  | m :: ns, n, h => by
    obtain ⟨ws, h1, h2⟩ := clockList_words ns m fun x hx => h x (List.mem_cons_of_mem _ hx)
    refine ⟨(n ++ [',']) :: ws, ?_, .cons (.inr rfl) h2⟩
    have e : clockList n (m :: ns) = (n ++ [',']) ++ ' ' :: clockList m ns := by
      simp [clockList]
    rw [e, splitOnChar_append, h1, splitOnChar_single]
    · rfl
    · intro hm
      rcases List.mem_append.1 hm with hm | hm
      · exact h n List.mem_cons_self hm
      · cases List.mem_singleton.1 hm

theorem addClock_word {w m : List Char} (hm : ',' ∉ m) (h : w = m ∨ w = m ++ [',']) (st : DeclState) :
    (splitOnChar ',' w).foldl DeclState.addClock st = st.addClock m := by
  rcases h with rfl | rfl
  · rw [splitOnChar_single hm]; rfl
  · rw [splitOnChar_append, splitOnChar_single hm]; rfl

theorem addClock_words {ws ms : List (List Char)} (h : List.Forall₂ (fun w m => w = m ∨ w = m ++ [',']) ws ms)
    (hm : ∀ m ∈ ms, ',' ∉ m) : ∀ st : DeclState,
      ws.foldl (fun st w => (splitOnChar ',' w).foldl DeclState.addClock st) st = ms.foldl DeclState.addClock st := by
  induction h with
  | nil => intro st; rfl
  | cons h _ ih =>
    intro st
    rw [List.foldl_cons, List.foldl_cons, addClock_word (hm _ List.mem_cons_self) h,
      ih fun m hx => hm m (List.mem_cons_of_mem _ hx)]

theorem addClocks_ints : ∀ (ms : List (List Char)) (st : DeclState), (ms.foldl DeclState.addClock st).ints = st.ints
  | [], _ => rfl
  | m :: ms, st => by
    rw [List.foldl_cons, addClocks_ints ms]
    unfold DeclState.addClock
    split <;> rfl

/-- What is read back from the text of a list of names. -/
theorem decode_encode (d : Decls) (hn : ∀ n ∈ d.clockNames, IsClockName n) :
    decodeDeclarations (encodeDeclarations d) =
      .ok ⟨[], ((d.clockNames.map String.toList).foldl DeclState.addClock ⟨[], [], 1⟩).clocks⟩ := by
  obtain ⟨is, cs⟩ := d
  cases cs with
  | nil => rfl
  | cons p ps =>
    have hn' : ∀ m ∈ p.1.toList :: ps.map (·.1.toList), m ≠ [] ∧ ' ' ∉ m ∧ ',' ∉ m ∧ ';' ∉ m ∧ '\n' ∉ m := by
      intro m hm
      have : m ∈ ((p :: ps).map (·.1)).map String.toList := by simpa using hm
      obtain ⟨n, h1, rfl⟩ := List.mem_map.1 this
      obtain ⟨h2, h3⟩ := hn n h1
      exact ⟨fun e => h2 (String.toList_injective e), h3⟩
    set n := p.1.toList with hnd
    set ns := ps.map (·.1.toList) with hns
    have etext : (encodeDeclarations ⟨is, p :: ps⟩).toList = ("clock".toList ++ ' ' :: clockList n ns) ++ ';' :: [] := by
      unfold encodeDeclarations
      rw [String.toList_ofList]
      simp only [clockList, hns, List.flatMap_map]
      simp [hnd]
    have hbody : ∀ x, x ∈ clockList n ns → (∃ m ∈ n :: ns, x ∈ m) ∨ x = ',' ∨ x = ' ' := by
      intro x hx
      rcases List.mem_append.1 hx with hx | hx
      · exact .inl ⟨n, List.mem_cons_self, hx⟩
      · obtain ⟨m, h1, h2⟩ := List.mem_flatMap.1 hx
        simp only [List.cons_append, List.nil_append, List.mem_cons] at h2
        rcases h2 with h2 | h2 | h2
        · exact .inr (.inl h2)
        · exact .inr (.inr h2)
        · exact .inl ⟨m, List.mem_cons_of_mem _ h1, h2⟩
    have hnot : ∀ x, x ≠ ',' → x ≠ ' ' → x ∉ "clock".toList → (∀ m ∈ n :: ns, x ∉ m) →
        x ∉ "clock".toList ++ ' ' :: clockList n ns := by
      intro x h1 h2 h3 h4 hm
      rcases List.mem_append.1 hm with hm | hm
      · exact h3 hm
      · rcases List.mem_cons.1 hm with hm | hm
        · exact h2 hm
        · rcases hbody x hm with ⟨m, h5, h6⟩ | h | h
          · exact h4 m h5 h6
          · exact h1 h
          · exact h2 h
    have hsemi := hnot ';' (by decide) (by decide) (by decide +kernel) fun m hm => (hn' m hm).2.2.2.1
    have hline := hnot '\n' (by decide) (by decide) (by decide +kernel) fun m hm => (hn' m hm).2.2.2.2
    obtain ⟨ws, h1, h2⟩ := clockList_words ns n fun m hm => (hn' m hm).2.1
    have hlines : splitOnChar '\n' (encodeDeclarations ⟨is, p :: ps⟩).toList =
        [("clock".toList ++ ' ' :: clockList n ns) ++ ';' :: []] := by
      rw [etext, splitOnChar_single]
      intro hm
      rcases List.mem_append.1 hm with hm | hm
      · exact hline hm
      · cases List.mem_singleton.1 hm
    have hsub : ∀ st : DeclState, st.subDecl ("clock".toList ++ ' ' :: clockList n ns) =
        .ok ((n :: ns).foldl DeclState.addClock st) := by
      intro st
      unfold DeclState.subDecl
      rw [if_neg (by rw [show "clock".toList = 'c' :: "lock".toList by decide +kernel]; simp),
        splitOnChar_append, splitOnChar_single (show ' ' ∉ "clock".toList by decide +kernel), h1]
      rw [List.singleton_append]
      dsimp only
      rw [if_pos rfl, addClock_words h2 fun m hm => (hn' m hm).2.2.1]
    unfold decodeDeclarations
    rw [hlines, List.foldlM_cons]
    have hl : DeclState.line ⟨[], [], 1⟩ (("clock".toList ++ ' ' :: clockList n ns) ++ ';' :: []) =
        .ok ((n :: ns).foldl DeclState.addClock ⟨[], [], 1⟩) := by
      unfold DeclState.line
      rw [if_neg (by
        rw [show "clock".toList = 'c' :: "lock".toList by decide +kernel,
          show "//".toList = ['/', '/'] by decide +kernel]
        simp [List.isPrefixOf]), splitOnChar_append, splitOnChar_single hsemi]
      show List.foldlM DeclState.subDecl _ [_, []] = _
      rw [List.foldlM_cons, hsub, ok_bind, List.foldlM_cons]
      rfl
    rw [hl, ok_bind, List.foldlM_nil]
    have hi := addClocks_ints (n :: ns) ⟨[], [], 1⟩
    show Except.ok (Decls.mk _ _) = _
    rw [hi]
    simp only [Decls.clockNames, List.map_cons, List.map_map, hns, hnd, Function.comp_def]

/-- **C41** for names that can be declared and are declared once: the same names, numbered 1, 2, … in the order in which
they are written.  Missing: names that cannot be declared, see `C41_violated_name`; no component has one, see `C41_read`
and `C41_saved`. -/
theorem C41_roundtrip_partial (d : Decls) (hn : ∀ n ∈ d.clockNames, IsClockName n) (hd : d.clockNames.Nodup) :
    decodeDeclarations (encodeDeclarations d) = .ok ⟨[], d.clockNames.zip (List.range' 1 d.clockNames.length)⟩ := by
  rw [decode_encode d hn]
  have h0 : DeclState.After ⟨[], [], 1⟩ [] := fun _ => ⟨rfl, rfl⟩
  have := foldl_after (fun h n => addClock_after h n) (d.clockNames.map String.toList) h0
  rw [List.nil_append, flatMap_filter_map] at this
  have e : ((d.clockNames.map String.toList).filter fun n => !n.isEmpty).map String.ofList = d.clockNames := by
    rw [List.filter_eq_self.2]
    · rw [List.map_map]
      simp [Function.comp_def]
    · intro m hm
      obtain ⟨n, h1, rfl⟩ := List.mem_map.1 hm
      have := (hn n h1).1
      cases h : n.toList with
      | nil => exact absurd (String.toList_injective h) this
      | cons => rfl
  rw [e] at this
  rw [(this hd).1]

/-! ## The names that are read can be declared -/

theorem mem_addClock {st : DeclState} {m : List Char} {n : String}
    (h : n ∈ (st.addClock m).clocks.map (·.1)) : n ∈ st.clocks.map (·.1) ∨ m ≠ [] ∧ n = String.ofList m := by
  unfold DeclState.addClock at h
  split at h
  · exact .inl h
  · rename_i hm
    rcases hmInsert_keys.1 h with h | h
    · exact .inr ⟨by simpa using hm, h⟩
    · exact .inl h

/-- All names can be declared, and no name is there twice. -/
def DeclState.Clean (st : DeclState) : Prop := (∀ n ∈ st.clocks.map (·.1), IsClockName n) ∧ (st.clocks.map (·.1)).Nodup

theorem DeclState.Clean.addClock {st : DeclState} (h : st.Clean) {m : List Char}
    (hm : ' ' ∉ m ∧ ',' ∉ m ∧ ';' ∉ m ∧ '\n' ∉ m) : (st.addClock m).Clean := by
  refine ⟨fun n hn => ?_, ?_⟩
  · rcases mem_addClock hn with hn | ⟨h1, rfl⟩
    · exact h.1 n hn
    · refine ⟨fun e => h1 ?_, ?_⟩
      · have := congrArg String.toList e
        rwa [String.toList_ofList] at this
      · rwa [String.toList_ofList]
  · unfold DeclState.addClock
    split
    · exact h.2
    · exact hmInsert_nodup h.2

theorem foldl_keeps {σ α : Type} {P : σ → Prop} {f : σ → α → σ} {l : List α} (hf : ∀ s, P s → ∀ a ∈ l, P (f s a)) :
    ∀ {s : σ}, P s → P (l.foldl f s) := by
  induction l with
  | nil => intro s h; exact h
  | cons a l ih =>
    intro s h
    exact ih (fun s hs b hb => hf s hs b (List.mem_cons_of_mem _ hb)) (hf s h a List.mem_cons_self)

theorem foldlM_keeps {σ α : Type} {P : σ → Prop} {f : σ → α → Res σ} {l : List α}
    (hf : ∀ s s', P s → ∀ a ∈ l, f s a = .ok s' → P s') : ∀ {s s' : σ}, P s → l.foldlM f s = .ok s' → P s' := by
  induction l with
  | nil => intro s s' h he; cases he; exact h
  | cons a l ih =>
    intro s s' h he
    rw [List.foldlM_cons] at he
    obtain ⟨s1, h1, h2⟩ := bind_ok he
    exact ih (fun s s' hs b hb => hf s s' hs b (List.mem_cons_of_mem _ hb)) (hf s s1 h a List.mem_cons_self h1) h2

theorem DeclState.Clean.subDecl {st st' : DeclState} (h : st.Clean) {decl : List Char} (hd : ';' ∉ decl ∧ '\n' ∉ decl)
    (he : st.subDecl decl = .ok st') : st'.Clean := by
  unfold DeclState.subDecl at he
  split at he
  · cases he; exact h
  · cases hs : splitOnChar ' ' decl with
    | nil => rw [hs] at he; cases he
    | cons ty words =>
      rw [hs] at he
      dsimp only at he
      split at he
      · cases he
        refine foldl_keeps (P := DeclState.Clean) (fun s hs' w hw => foldl_keeps (P := DeclState.Clean) ?_ hs') h
        intro s hs'' m hm
        obtain ⟨h1, h2⟩ := splitOnChar_mem hm
        obtain ⟨h3, h4⟩ := splitOnChar_mem (sep := ' ') (l := decl) (w := w) (by rw [hs]; exact List.mem_cons_of_mem _ hw)
        exact DeclState.Clean.addClock hs'' ⟨fun hx => h3 (h2 _ hx), h1, fun hx => hd.1 (h4 _ (h2 _ hx)), fun hx => hd.2 (h4 _ (h2 _ hx))⟩
      · split at he
        · cases he
          unfold DeclState.Clean
          rw [(addInts_clocks words st).1]
          exact h
        · cases he

theorem decode_clean {text : String} {d : Decls} (h : decodeDeclarations text = .ok d) :
    (∀ n ∈ d.clockNames, IsClockName n) ∧ d.clockNames.Nodup := by
  unfold decodeDeclarations at h
  obtain ⟨st, h1, h2⟩ := bind_ok h
  cases h2
  refine foldlM_keeps (P := DeclState.Clean) (fun s s' hs l hl he => ?_) (s := ⟨[], [], 1⟩) ⟨by simp, by simp⟩ h1
  unfold DeclState.line at he
  split at he
  · cases he; exact hs
  · refine foldlM_keeps (P := DeclState.Clean) (fun s s' hs decl hd he => ?_) hs he
    obtain ⟨h3, h4⟩ := splitOnChar_mem hd
    exact DeclState.Clean.subDecl hs ⟨h3, fun hx => (splitOnChar_mem hl).1 (h4 _ hx)⟩ he

/-- **C41** for every component that was read: its declarations are written and read back with the same names, which then
have the indices 1 to n. -/
theorem C41_read {text : String} {d : Decls} (h : decodeDeclarations text = .ok d) :
    decodeDeclarations (encodeDeclarations d) = .ok ⟨[], d.clockNames.zip (List.range' 1 d.clockNames.length)⟩ :=
  C41_roundtrip_partial d (decode_clean h).1 (decode_clean h).2

/-! ## The names of saved components can be declared -/

theorem isClockName_numbered {n : String} (h : IsClockName n) (k : Nat) : IsClockName (n ++ toString k) := by
  have hd : ∀ x ∈ (toString k).toList, x.isDigit = true := by
    simp only [Nat.toString_eq_repr, Nat.repr_eq_ofList_toDigits, String.toList_ofList]
    exact fun c hc => Nat.isDigit_of_mem_toDigits (by decide) (by decide) hc
  have key : ∀ x, x.isDigit = false → x ∉ n.toList → x ∉ (n ++ toString k).toList := by
    intro x h1 h2 hx
    rw [String.toList_append] at hx
    rcases List.mem_append.1 hx with hx | hx
    · exact h2 hx
    · rw [hd x hx] at h1; cases h1
  obtain ⟨h0, h1, h2, h3, h4⟩ := h
  refine ⟨fun e => h0 ?_, key _ (by decide) h1, key _ (by decide) h2, key _ (by decide) h3, key _ (by decide) h4⟩
  have := congrArg String.toList e
  rw [String.toList_append] at this
  exact String.toList_injective (List.append_eq_nil_iff.1 this).1

theorem mergeClocks_names {P : String → Prop} (hP : ∀ (n : String) (k : Nat), P n → P (n ++ toString k)) : ∀ (ds : List Decls) (k : Nat)
    (m : List (String × Nat)), (∀ d ∈ ds, ∀ n ∈ d.clockNames, P n) → (∀ n ∈ m.map (·.1), P n) → (m.map (·.1)).Nodup →
    (∀ n ∈ (mergeClocks k ds m).map (·.1), P n) ∧ ((mergeClocks k ds m).map (·.1)).Nodup
  | [], _, _, _, h2, h3 => ⟨h2, h3⟩
  | d :: ds, k, m, h1, h2, h3 => by
    rw [mergeClocks]
    have := foldl_keeps (P := fun m : List (String × Nat) => (∀ n ∈ m.map (·.1), P n) ∧ (m.map (·.1)).Nodup)
      (f := addClock k) (l := d.clocks) (fun m hm p hp => by
        have hp1 : P p.1 := h1 d List.mem_cons_self _ (List.mem_map_of_mem hp)
        unfold addClock
        split
        · refine ⟨fun n hn => ?_, hmInsert_nodup hm.2⟩
          rcases hmInsert_keys.1 hn with rfl | hn
          · exact hP _ _ hp1
          · exact hm.1 n hn
        · refine ⟨fun n hn => ?_, hmInsert_nodup hm.2⟩
          rcases hmInsert_keys.1 hn with rfl | hn
          · exact hp1
          · exact hm.1 n hn) (s := m) ⟨h2, h3⟩
    exact mergeClocks_names hP ds (k + 1) _ (fun d hd => h1 d (List.mem_cons_of_mem _ hd)) this.1 this.2

/-- **C41** for every component that is saved from a system whose parts were read. -/
theorem C41_saved (ds : List Decls) (h : ∀ d ∈ ds, (∀ n ∈ d.clockNames, IsClockName n) ∧ d.clockNames.Nodup) :
    decodeDeclarations (encodeDeclarations ⟨[], clockMap ds⟩) =
      .ok ⟨[], ((clockMap ds).map (·.1)).zip (List.range' 1 (clockMap ds).length)⟩ := by
  have key : (∀ n ∈ (clockMap ds).map (·.1), IsClockName n) ∧ ((clockMap ds).map (·.1)).Nodup := by
    have merged := mergeClocks_names (fun n k h => isClockName_numbered h k) ds 0 [] (fun d hd => (h d hd).1)
      (by simp) (by simp)
    unfold clockMap
    split
    · exact h _ (by simp)
    · exact merged
  have := C41_roundtrip_partial ⟨[], clockMap ds⟩ key.1 key.2
  rw [this]
  simp [Decls.clockNames]

/-- **Violated** for a clock whose name cannot be declared: it is read back as two clocks. -/
theorem C41_violated_name : ∃ d : Decls, d.clockNames = ["a b"] ∧
    decodeDeclarations (encodeDeclarations d) = .ok ⟨[], [("a", 1), ("b", 2)]⟩ :=
  ⟨⟨[], [("a b", 1)]⟩, rfl, rfl⟩

/-- The integers of a component are lost, whatever its clocks are. -/
theorem C41_ints_lost (d : Decls) (hn : ∀ n ∈ d.clockNames, IsClockName n) {d' : Decls}
    (h : decodeDeclarations (encodeDeclarations d) = .ok d') : d'.ints = [] := by
  rw [decode_encode d hn] at h
  cases h
  rfl

/-- A component with two clocks in another order and an integer: the hypotheses of `C41_roundtrip_partial` are met. -/
example : decodeDeclarations (encodeDeclarations ⟨[("n", 0)], [("y", 2), ("x", 1)]⟩) = .ok ⟨[], [("y", 1), ("x", 2)]⟩ :=
  C41_roundtrip_partial ⟨[("n", 0)], [("y", 2), ("x", 1)]⟩
    (by
      intro n hn
      simp only [Decls.clockNames, List.map_cons, List.map_nil, List.mem_cons, List.not_mem_nil, or_false] at hn
      rcases hn with rfl | rfl <;> exact ⟨by decide +kernel, by decide +kernel, by decide +kernel, by decide +kernel, by decide +kernel⟩)
    (by decide +kernel)

/-- A text that can be read: the hypothesis of `C41_read` is met. -/
example : decodeDeclarations "clock x, y;\n// comment\nint n;" = .ok ⟨[("n", 0)], [("x", 1), ("y", 2)]⟩ := rfl

end Reveaal
