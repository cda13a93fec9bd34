import Verif.Model.LogSettings
import Verif.Props.Locale
/-! C126: log handlers.  C127: looking up logs. -/
namespace Wizard.Props
open Wizard

/-- One handler in a list: blanks, the spelling of its name, blanks. -/
structure HandlerItem where
  lead : List Byte
  spelled : List Byte
  tail : List Byte
  handler : List Byte × Nat

/-- Blanks around a known name in upper or lower case. -/
def HandlerItem.Ok (i : HandlerItem) : Prop :=
  i.handler ∈ logHandlers ∧ i.spelled.map lowerAscii = i.handler.1 ∧ (∀ c ∈ i.lead, isSpaceC c = true) ∧ (∀ c ∈ i.tail, isSpaceC c = true)

def HandlerItem.text (i : HandlerItem) : List Byte := i.lead ++ i.spelled ++ i.tail

/-- Items separated by commas. -/
def handlerList : List HandlerItem → List Byte
  | [] => []
  | [i] => i.text
  | i :: is => i.text ++ asc ',' :: handlerList is

/-- All their handlers. -/
def handlerMask (is : List HandlerItem) : Nat := is.foldl (fun m i => m ||| i.handler.2) 0

theorem not_prefix_of_take {a b r : List Byte} (h1 : a.isPrefixOf b = false) (h2 : b.isPrefixOf a = false) : (b ++ r).take a.length ≠ a := by
  intro h
  rcases Nat.le_total a.length b.length with hl | hl
  · rw [List.take_append_of_le_length hl] at h
    have : a.isPrefixOf b = true := List.isPrefixOf_iff_prefix.mpr (List.prefix_iff_eq_take.mpr h.symm)
    rw [h1] at this; cases this
  · have : b.isPrefixOf a = true := by
      refine List.isPrefixOf_iff_prefix.mpr ⟨(r.take (a.length - b.length)), ?_⟩
      rw [List.take_append, List.take_of_length_le hl] at h
      exact h
    rw [h2] at this; cases this

theorem handlers_apart : ∀ a ∈ logHandlers, ∀ b ∈ logHandlers, a ≠ b → a.1.isPrefixOf b.1 = false := by decide +kernel
theorem handlers_lower : ∀ a ∈ logHandlers, a.1.map lowerAscii = a.1 ∧ (0 : Byte) ∉ a.1 ∧ a.1 ≠ [] ∧ a.1.length ≤ 7 ∧ (∀ c ∈ a.1, handlerSep c = false) := by decide +kernel

theorem handlerAt_known {s h : List Byte × Nat} (p : List Byte) (hp : (0 : Byte) ∉ p) (hh : ∃ q r, p = q ++ r ∧ q.map lowerAscii = h.1) :
    ∀ (table : List (List Byte × Nat)), (∀ a ∈ table, a ∈ logHandlers) → h ∈ table → handlerAt cLocaleLower p table = .ok (some h.2) := by
  obtain ⟨q, r, e1, e2⟩ := hh
  intro table
  induction table with
  | nil => intro _ h; cases h
  | cons a as ih =>
    intro hsub hmem
    have ha := hsub a (List.mem_cons_self ..)
    have hhm := hsub h hmem
    have hl := handlers_lower a ha
    rw [handlerAt]
    have hc := C06_ncompare cLocaleLower cLocaleLower_ok p a.1 a.1.length hp hl.2.1
    rw [hc, List.take_length]
    obtain ⟨x, x1, _, _, x2⟩ := C06_compare_spec cLocaleLower cLocaleLower_ok (p.take a.1.length) a.1 (fun h => hp (List.mem_of_mem_take h)) hl.2.1
    rw [x1, Res.ok_bind]
    have e3 : p.map lowerAscii = h.1 ++ r.map lowerAscii := by rw [e1, List.map_append, e2]
    by_cases hx : a = h
    · subst hx
      have : x = 0 := x2.mpr (by
        show (p.take a.1.length).map lowerAscii = a.1.map lowerAscii
        rw [List.map_take, e3, List.take_left' rfl, hl.1])
      rw [if_pos this]
    · have hne : x ≠ 0 := by
        intro h0
        have h1 := x2.mp h0
        have h2 : (p.take a.1.length).map lowerAscii = a.1.map lowerAscii := h1
        rw [List.map_take, e3, hl.1] at h2
        exact not_prefix_of_take (handlers_apart a ha h hhm hx) (handlers_apart h hhm a ha (fun e => hx e.symm)) h2
      rw [if_neg hne]
      refine ih (fun b hb => hsub b (List.mem_cons_of_mem _ hb)) ?_
      rcases List.mem_cons.mp hmem with e | e
      · exact absurd e.symm hx
      · exact e

theorem dropWhile_each {f : Byte → Bool} {l r : List Byte} (h : ∀ c ∈ l, f c = true) : (l ++ r).dropWhile f = r.dropWhile f := by
  induction l with
  | nil => rfl
  | cons a l ih =>
    rw [List.cons_append, List.dropWhile_cons, if_pos (h a (List.mem_cons_self ..))]
    exact ih (fun c hc => h c (List.mem_cons_of_mem _ hc))

theorem lower_comma : ∀ c : Byte, lowerAscii c = asc ',' → c = asc ',' := by decide +kernel
theorem lower_zero : ∀ c : Byte, lowerAscii c = 0 → c = 0 := by decide +kernel
theorem lower_handlerSep : ∀ c : Byte, handlerSep (lowerAscii c) = false → handlerSep c = false := by decide +kernel
theorem space_facts : ∀ c : Byte, isSpaceC c = true → c ≠ 0 ∧ c ≠ asc ',' ∧ handlerSep c = true := by decide +kernel

/-- What the parser sees at an item. -/
theorem item_step {i : HandlerItem} (h : i.Ok) (commas rest : List Byte) (hc : ∀ c ∈ commas, c = asc ',') (hr : rest = [] ∨ ∃ r, rest = asc ',' :: r) (h0 : (0 : Byte) ∉ rest) :
    handlerAt cLocaleLower ((commas ++ i.text ++ rest).dropWhile handlerSep) logHandlers = .ok (some i.handler.2) ∧
    ((commas ++ i.text ++ rest).dropWhile handlerSep).dropWhile (· ≠ asc ',') = rest := by
  obtain ⟨h1, h2, h3, h4⟩ := h
  have hl := handlers_lower _ h1
  have hs : ∀ c ∈ i.spelled, handlerSep c = false ∧ c ≠ 0 := by
    intro c hc
    have : lowerAscii c ∈ i.handler.1 := by rw [← h2]; exact List.mem_map.mpr ⟨c, hc, rfl⟩
    exact ⟨lower_handlerSep c (hl.2.2.2.2 _ this), fun e => hl.2.1 (by rw [e] at this; exact this)⟩
  have e1 : (commas ++ i.text ++ rest).dropWhile handlerSep = i.spelled ++ (i.tail ++ rest) := by
    unfold HandlerItem.text
    rw [show commas ++ (i.lead ++ i.spelled ++ i.tail) ++ rest = (commas ++ i.lead) ++ (i.spelled ++ (i.tail ++ rest)) by simp]
    rw [dropWhile_each]
    · cases hsp : i.spelled with
      | nil => rw [hsp] at h2; exact absurd h2.symm hl.2.2.1
      | cons c s =>
        rw [List.cons_append, List.dropWhile_cons, if_neg]
        rw [(hs c (by rw [hsp]; exact List.mem_cons_self ..)).1]; decide
    · intro c hx
      rcases List.mem_append.mp hx with hx | hx
      · rw [hc c hx]; decide
      · exact (space_facts c (h3 c hx)).2.2
  rw [e1]
  constructor
  · refine handlerAt_known (s := i.handler) (h := i.handler) _ ?_ ⟨i.spelled, i.tail ++ rest, rfl, h2⟩ _ (fun _ h => h) h1
    intro hz
    rcases List.mem_append.mp hz with hz | hz
    · exact (hs _ hz).2 rfl
    · rcases List.mem_append.mp hz with hz | hz
      · exact (space_facts _ (h4 _ hz)).1 rfl
      · exact h0 hz
  · rw [← List.append_assoc, dropWhile_each]
    · rcases hr with e | ⟨r, e⟩
      · rw [e]; rfl
      · rw [e, List.dropWhile_cons, if_neg (by simp)]
    · intro c hx
      rcases List.mem_append.mp hx with hx | hx
      · refine decide_eq_true ?_
        intro e
        have := (hs c hx).1
        rw [e] at this; exact absurd this (by decide)
      · exact decide_eq_true (space_facts _ (h4 _ hx)).2.1

theorem list_nul : ∀ {is : List HandlerItem}, (∀ i ∈ is, i.Ok) → (0 : Byte) ∉ handlerList is
  | [], _ => List.not_mem_nil
  | i :: is, h => by
    obtain ⟨h1, h2, h3, h4⟩ := h i (List.mem_cons_self ..)
    have ht : (0 : Byte) ∉ i.text := by
      unfold HandlerItem.text
      intro hz
      rcases List.mem_append.mp hz with hz | hz
      · rcases List.mem_append.mp hz with hz | hz
        · exact (space_facts _ (h3 _ hz)).1 rfl
        · exact (handlers_lower _ h1).2.1 (by rw [← h2]; exact List.mem_map.mpr ⟨0, hz, rfl⟩)
      · exact (space_facts _ (h4 _ hz)).1 rfl
    have ih := list_nul (is := is) (fun j hj => h j (List.mem_cons_of_mem _ hj))
    cases is with
    | nil => exact ht
    | cons j js =>
      intro hz
      rcases List.mem_append.mp hz with hz | hz
      · exact ht hz
      · rcases List.mem_cons.mp hz with hz | hz
        · exact absurd hz (by decide)
        · exact ih hz

theorem parse_list : ∀ (is : List HandlerItem), is ≠ [] → (∀ i ∈ is, i.Ok) → ∀ (commas rest : List Byte) (m : Nat), (∀ c ∈ commas, c = asc ',') →
    (rest = [] ∨ ∃ r, rest = asc ',' :: r) → (0 : Byte) ∉ rest →
    parseLogHandlers cLocaleLower (commas ++ handlerList is ++ rest) m =
      if rest = [] then .ok (is.foldl (fun m i => m ||| i.handler.2) m) else parseLogHandlers cLocaleLower rest (is.foldl (fun m i => m ||| i.handler.2) m)
  | [i], _, h, commas, rest, m, hc, hr, h0 => by
    obtain ⟨e1, e2⟩ := item_step (h i (List.mem_cons_self ..)) commas rest hc hr h0
    rw [parseLogHandlers, handlerList, e1, Res.ok_bind]
    simp only [e2, List.foldl_cons, List.foldl_nil]
    split <;> rfl
  | i :: j :: is, _, h, commas, rest, m, hc, hr, h0 => by
    have h0' := list_nul (is := j :: is) (fun j hj => h j (List.mem_cons_of_mem _ hj))
    have hz : (0 : Byte) ∉ asc ',' :: (handlerList (j :: is) ++ rest) := by
      intro hz
      rcases List.mem_cons.mp hz with hz | hz
      · exact absurd hz (by decide)
      · rcases List.mem_append.mp hz with hz | hz
        · exact h0' hz
        · exact h0 hz
    obtain ⟨e1, e2⟩ := item_step (h i (List.mem_cons_self ..)) commas (asc ',' :: (handlerList (j :: is) ++ rest)) hc (.inr ⟨_, rfl⟩) hz
    have e : commas ++ handlerList (i :: j :: is) ++ rest = commas ++ i.text ++ asc ',' :: (handlerList (j :: is) ++ rest) := by
      rw [handlerList]; · simp
      · intro h; cases h
    rw [parseLogHandlers, e, e1, Res.ok_bind]
    simp only [e2, List.foldl_cons]
    rw [dif_neg (by simp)]
    have := parse_list (j :: is) (by simp) (fun k hk => h k (List.mem_cons_of_mem _ hk)) [asc ','] rest (m ||| i.handler.2) (by simp) hr h0
    simpa using this

/-- **C126** A list of known handlers, in upper or lower case, separated by commas and blanks, turns on exactly these handlers. -/
theorem C126_parse_partial (is : List HandlerItem) (hne : is ≠ []) (h : ∀ i ∈ is, i.Ok) :
    parseLogHandlers cLocaleLower (handlerList is) 0 = .ok (handlerMask is) := by
  have := parse_list is hne h [] [] 0 (by simp) (.inl rfl) (by simp)
  simpa [handlerMask] using this

example : parseLogHandlers cLocaleLower (ascText "File, stdout ") 0 = .ok 10 := by
  have := C126_parse_partial [⟨[], ascText "File", [], (ascText "file", 8)⟩, ⟨ascText " ", ascText "stdout", ascText " ", (ascText "stdout", 2)⟩] (by simp)
    (by unfold HandlerItem.Ok; decide +kernel)
  rw [show handlerMask _ = 10 by decide +kernel, show handlerList _ = ascText "File, stdout " by decide +kernel] at this
  exact this

/-- **C126 is false** of lists that end in a comma: every handler is lost. -/
theorem C126_trailing_violated (is : List HandlerItem) (hne : is ≠ []) (h : ∀ i ∈ is, i.Ok) :
    parseLogHandlers cLocaleLower (handlerList is ++ [asc ',']) 0 = .ok 0 := by
  have := parse_list is hne h [] [asc ','] 0 (by simp) (.inr ⟨_, rfl⟩) (by decide)
  rw [List.nil_append, if_neg (by simp)] at this
  rw [this, parseLogHandlers]
  have e : [asc ','].dropWhile handlerSep = [] := by decide
  rw [e]
  have : handlerAt cLocaleLower [] logHandlers = .ok none := by decide +kernel
  rw [this]; rfl

/-- **C126 is false** of lists with an unknown name (the others are lost too) and of names that only begin like a handler. -/
theorem C126_unknown_violated : handlerAt cLocaleLower (ascText "syslog") logHandlers = .ok none ∧
    handlerAt cLocaleLower (ascText "filed-under-x") logHandlers = .ok (some 8) := by decide +kernel

/-- **C126 is false** of a list with an unknown name: the handler named before it is lost as well. -/
theorem C126_unknown_lost_violated : parseLogHandlers cLocaleLower (ascText "file,syslog") 0 = .ok 0 := by
  have := parse_list [⟨[], ascText "file", [], (ascText "file", 8)⟩] (by simp) (by unfold HandlerItem.Ok; decide +kernel) [] (ascText ",syslog") 0 (by simp)
    (.inr ⟨ascText "syslog", rfl⟩) (by decide +kernel)
  rw [List.nil_append, if_neg (by decide +kernel)] at this
  rw [show ascText "file,syslog" = handlerList [⟨[], ascText "file", [], (ascText "file", 8)⟩] ++ ascText ",syslog" by decide +kernel, this, parseLogHandlers]
  have e : (ascText ",syslog").dropWhile handlerSep = ascText "syslog" := by decide +kernel
  rw [e, C126_unknown_violated.1]; rfl

/-- **C126 is false** of the list that `ListLogInfo` prints: the handlers of a mask are named rightly only for "console", "file" and "event" with
"stderr": a log to "stdout" is listed as "debug". -/
theorem C126_listed_violated (mask : Nat) (h : mask < 64) :
    (∀ e ∈ logHandlers, (e.1 ∈ listedHandlers mask ↔ e.2 ≠ 0 ∧ mask &&& e.2 = e.2)) ↔ mask ∈ [0, 1, 8, 9, 36, 37, 44, 45] := by
  revert mask; decide +kernel

/-! ### Lookup -/

/-- What the loader makes: at least the built-in log, and none has a name. -/
def Loaded (cache : List LogEntry) : Prop := cache ≠ [] ∧ ∀ e ∈ cache, e.name = none

theorem findLog_none (fold : Byte → Byte) (name : List Byte) : ∀ (cache : List LogEntry), (∀ e ∈ cache, e.name = none) → findLog fold name cache = .ok none
  | [], _ => rfl
  | e :: es, h => by
    rw [findLog, h e (List.mem_cons_self ..)]
    show (Res.ok (1 : Int)).bind _ = _
    exact findLog_none fold name es (fun x hx => h x (List.mem_cons_of_mem _ hx))

/-- **C127** Asking for any log returns the first one, and listing all lists all that are not hidden. -/
theorem C127_any_partial (fold : Byte → Byte) (glob : List Byte → List Byte → Bool) (cache : List LogEntry) (h : Loaded cache) (name : Option (List Byte))
    (hn : name = none ∨ name = some (ascText "*")) (pattern : List Byte) (hp : pattern = [] ∨ pattern = ascText "*") :
    (∃ e, cache.head? = some e ∧ getLogInfo fold name cache = .ends (.ok (some e, cache))) ∧
      listLogs glob pattern cache = .ok (cache.filter fun e => !e.stealth) := by
  constructor
  · obtain ⟨e, es, he⟩ := List.exists_cons_of_ne_nil h.1
    refine ⟨e, by rw [he]; rfl, ?_⟩
    unfold getLogInfo
    rw [if_pos hn, he]; rfl
  · clear h
    induction cache with
    | nil => rfl
    | cons e es ih =>
      rw [listLogs, ih, List.filter_cons]
      cases e.stealth
      · simp [hp]
      · simp

/-- **C127 is false** of names: no log has a name, and looking for one waits for ever (for the semaphore that the same thread holds). -/
theorem C127_lookup_violated (fold : Byte → Byte) (cache : List LogEntry) (h : Loaded cache) (name : List Byte) (hn : name ≠ ascText "*") :
    getLogInfo fold (some name) cache = .waits := by
  unfold getLogInfo
  rw [if_neg (by simp [hn])]
  simp only [Option.getD_some, findLog_none fold name cache h.2]
  obtain ⟨e, es, he⟩ := List.exists_cons_of_ne_nil h.1
  rw [he]; rfl

/-- **C127 is false** of patterns: listing logs by any other pattern crashes (unless all are hidden). -/
theorem C127_list_violated (glob : List Byte → List Byte → Bool) (pattern : List Byte) (hp : pattern ≠ [] ∧ pattern ≠ ascText "*") (cache : List LogEntry) (h : Loaded cache)
    (hs : ∃ e ∈ cache, e.stealth = false) : listLogs glob pattern cache = .ub := by
  obtain ⟨-, h⟩ := h
  induction cache with
  | nil => obtain ⟨e, he, _⟩ := hs; cases he
  | cons e es ih =>
    rw [listLogs, h e (List.mem_cons_self ..)]
    by_cases hx : e.stealth = true
    · have hs' : ∃ e ∈ es, e.stealth = false := by
        obtain ⟨y, y1, y2⟩ := hs
        rcases List.mem_cons.mp y1 with rfl | y1
        · rw [hx] at y2; cases y2
        · exact ⟨y, y1, y2⟩
      rw [if_pos hx, Res.ok_bind, ih hs' (fun x hx => h x (List.mem_cons_of_mem _ hx))]; rfl
    · rw [if_neg hx, if_neg (by simp [hp])]; rfl

/-- The built-in log (log.c:197-202, 304-311). -/
example : Loaded [⟨none, ascText "[built-in]", false, 0⟩] := by unfold Loaded; decide +kernel

/-- **C127** Setting the mask changes the mask of the current log and nothing else. -/
theorem C127_mask (option : Nat) (ho : option < 2 ^ 63) (e : LogEntry) (es : List LogEntry) :
    ∃ r, setLogEventMask option (e :: es) = .ok (r, { e with eventMask := option } :: es) := by
  refine ⟨option, ?_⟩
  have h1 : ((option : Int) = -1) = False := by simp
  have h2 : (((option : Int) % 2 ^ 64)).toNat = option := by omega
  simp only [setLogEventMask, h1, if_false, h2]

/-- **C127 is false** of the mask it returns: the new one, not (log.c:1719-1720) the previous one. -/
theorem C127_previous_violated (option : Nat) (ho : option < 2 ^ 63) (e : LogEntry) (es : List LogEntry) (h : e.eventMask ≠ option) :
    ∃ r s, setLogEventMask option (e :: es) = .ok (r, s) ∧ r ≠ e.eventMask := by
  have h1 : ((option : Int) = -1) = False := by simp
  have h2 : (((option : Int) % 2 ^ 64)).toNat = option := by omega
  refine ⟨option, { e with eventMask := option } :: es, ?_, fun e => h e.symm⟩
  simp only [setLogEventMask, h1, if_false, h2]

end Wizard.Props
