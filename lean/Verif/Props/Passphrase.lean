import Verif.Spec.Passphrase
/-! C136, C137 and C138: reading passphrases. -/
namespace Wizard.Props
open Wizard Wizard.Spec.Pass

/-! ### Reading one line -/

theorem readPhrase_plain (echo : Bool) (rest : List PEvent) (number : Option PSig) : ∀ (text buf : List Byte) (seen : List (Byte × Bool)),
    Plain text → buf.length + text.length ≤ 4095 →
    readPhrase echo (text.map .byte ++ rest) buf number seen = readPhrase echo rest (buf ++ text) number (seen ++ text.map (·, echo)) := by
  intro text
  induction text with
  | nil => intro buf seen _ _; simp
  | cons x xs ih =>
    intro buf seen hp hl
    have hx := hp x (List.mem_cons_self ..)
    simp only [List.length_cons] at hl
    rw [List.map_cons, List.cons_append, readPhrase, if_neg (fun e => e.elim hx.1 hx.2), if_pos (by simp [wizardPathExtent]; omega),
      ih _ _ (fun y hy => hp y (List.mem_cons_of_mem _ hy)) (by simp; omega)]
    simp

/-- However long the text: the bytes that do not fit are dropped. -/
theorem readPhrase_long (echo : Bool) (rest : List PEvent) (number : Option PSig) : ∀ (text buf : List Byte) (seen : List (Byte × Bool)),
    Plain text → buf.length ≤ 4095 →
    readPhrase echo (text.map .byte ++ rest) buf number seen = readPhrase echo rest ((buf ++ text).take 4095) number (seen ++ text.map (·, echo)) := by
  intro text
  induction text with
  | nil => intro buf seen _ h; simp [List.take_of_length_le h]
  | cons x xs ih =>
    intro buf seen hp hl
    have hx := hp x (List.mem_cons_self ..)
    rw [List.map_cons, List.cons_append, readPhrase, if_neg (fun e => e.elim hx.1 hx.2)]
    by_cases h : buf.length < wizardPathExtent - 1
    · rw [if_pos h, ih _ _ (fun y hy => hp y (List.mem_cons_of_mem _ hy)) (by simp [wizardPathExtent] at h ⊢; omega)]
      simp
    · rw [if_neg h, ih _ _ (fun y hy => hp y (List.mem_cons_of_mem _ hy)) hl]
      have h' : buf.length = 4095 := by simp [wizardPathExtent] at h; omega
      rw [List.take_append_of_le_length (by omega), List.take_append_of_le_length (by omega)]
      simp

theorem readPhrase_end (echo : Bool) (rest : List PEvent) (number : Option PSig) (buf : List Byte) (seen : List (Byte × Bool)) {e : Byte} (he : e = 10 ∨ e = 13) :
    readPhrase echo (.byte e :: rest) buf number seen = ⟨some 1, buf, rest, number, seen ++ [(e, echo)]⟩ := by
  rw [readPhrase, if_pos he]

/-! ### What reading leaves alone -/

/-- All that happens while reading: the records grow, and what they get is echoed as the terminal is set. -/
theorem readPhrase_seen (echo : Bool) : ∀ (es : List PEvent) (buf : List Byte) (number : Option PSig) (seen : List (Byte × Bool)),
    ∃ more, (readPhrase echo es buf number seen).seen = seen ++ more ∧ ∀ x ∈ more, x.2 = echo := by
  intro es
  induction es with
  | nil => intro buf number seen; exact ⟨[], by simp [readPhrase]⟩
  | cons e es ih =>
    intro buf number seen
    cases e with
    | byte b =>
      rw [readPhrase]
      split
      · exact ⟨[(b, echo)], rfl, by simp⟩
      · obtain ⟨more, h1, h2⟩ := ih (if buf.length < wizardPathExtent - 1 then buf ++ [b] else buf) number (seen ++ [(b, echo)])
        refine ⟨(b, echo) :: more, by rw [h1]; simp, ?_⟩
        intro x hx
        rcases List.mem_cons.mp hx with rfl | hx
        · rfl
        · exact h2 x hx
    | eof => exact ⟨[], by simp [readPhrase]⟩
    | err => exact ⟨[], by simp [readPhrase]⟩
    | sig s => exact ⟨[], by simp [readPhrase]⟩
    | late s => rw [readPhrase]; exact ih buf (some s) seen

/-- The terminal and the dispositions of all signals but SIGTTOU are those of `t0`; signals were sent with them in place. -/
structure PassKept (t0 t : Term) : Prop where
  attrs : t.attrs = t0.attrs
  disp : ∀ s, s ≠ .ttou → t.disp s = t0.disp s
  fd : t.fd = t0.fd
  tc : t.tc = t0.tc
  sent : ∃ more, t.delivered = t0.delivered ++ more ∧ ∀ x ∈ more, x.2.2 = t0.attrs ∧ (x.1 ≠ .ttou → x.2.1 = t0.disp x.1)
  seen : ∃ more, t.seen = t0.seen ++ more ∧ ∀ x ∈ more, usesTerminal t0 = true → x.2 = false

theorem PassKept.refl (t : Term) : PassKept t t := ⟨rfl, fun _ _ => rfl, rfl, rfl, ⟨[], by simp⟩, ⟨[], by simp⟩⟩

/-- What the whole of `GetPhrase` keeps, however it ends; if it still waits only the record of what was echoed matters. -/
def KeptEnd (t0 : Term) : PhraseEnd → Prop
  | .returned _ _ t => PassKept t0 t
  | .killed s t => PassKept t0 t ∧ ∃ before a, t.delivered = t0.delivered ++ before ++ [(s, .dfl, a)] ∧ s.stops = false
  | .blocked t => ∃ more, t.seen = t0.seen ++ more ∧ ∀ x ∈ more, usesTerminal t0 = true → x.2 = false

theorem killSelf_kept {t0 t : Term} (h : PassKept t0 t) (s : PSig) :
    PassKept t0 (killSelf t s).2 ∧ ((killSelf t s).1 = false → (∃ before a, (killSelf t s).2.delivered = t0.delivered ++ before ++ [(s, .dfl, a)]) ∧ s.stops = false) := by
  obtain ⟨m, hm, hm'⟩ := h.sent
  have hs : ∃ more, t.delivered ++ [(s, t.disp s, t.attrs)] = t0.delivered ++ more ∧ ∀ x ∈ more, x.2.2 = t0.attrs ∧ (x.1 ≠ .ttou → x.2.1 = t0.disp x.1) := by
    refine ⟨m ++ [(s, t.disp s, t.attrs)], by rw [hm]; simp, ?_⟩
    intro x hx
    rcases List.mem_append.mp hx with hx | hx
    · exact hm' x hx
    · rw [List.mem_singleton.mp hx]; exact ⟨h.attrs, h.disp s⟩
  unfold killSelf
  simp only []
  cases hd : t.disp s with
  | dfl =>
    simp only [hd] at hs ⊢
    split
    · exact ⟨⟨h.attrs, h.disp, h.fd, h.tc, hs, h.seen⟩, by simp⟩
    · rename_i hst
      exact ⟨⟨h.attrs, h.disp, h.fd, h.tc, hs, h.seen⟩, fun _ => ⟨⟨m, t.attrs, by rw [hm]⟩, by simpa using hst⟩⟩
  | ign => simp only [hd] at hs ⊢; exact ⟨⟨h.attrs, h.disp, h.fd, h.tc, hs, h.seen⟩, by simp⟩
  | ours => simp only [hd] at hs ⊢; exact ⟨⟨h.attrs, h.disp, h.fd, h.tc, hs, h.seen⟩, by simp⟩
  | user => simp only [hd] at hs ⊢; exact ⟨⟨h.attrs, h.disp, h.fd, h.tc, hs, h.seen⟩, by simp⟩

theorem restore_disp (saved now : PSig → PDisp) : ∀ s, s ≠ .ttou → restoreHandlers saved now s = saved s := by
  intro s hs; cases s <;> first | rfl | exact absurd rfl hs

theorem getPhrase_kept (t0 : Term) : ∀ (fuel : Nat) (old : List Byte) (t : Term), PassKept t0 t → KeptEnd t0 (getPhrase fuel old t) := by
  intro fuel
  induction fuel with
  | zero => intro old t h; exact h.seen
  | succ fuel ih =>
    intro old t h
    rw [getPhrase]
    by_cases hfd : t.fd = none
    · rw [if_pos hfd]
      exact ⟨h.attrs, h.disp, h.fd, h.tc, h.sent, h.seen⟩
    rw [if_neg hfd]
    simp only []
    have huse : usesTerminal t = usesTerminal t0 := by unfold usesTerminal; rw [h.fd, h.tc]
    obtain ⟨more, hs1, hs2⟩ := readPhrase_seen (startReading t).attrs.echo (startReading t).events [] (startReading t).number (startReading t).seen
    generalize readPhrase (startReading t).attrs.echo (startReading t).events [] (startReading t).number (startReading t).seen = r at hs1
    obtain ⟨m0, hm0, hm0'⟩ := h.seen
    have hseen : ∃ more, r.seen = t0.seen ++ more ∧ ∀ x ∈ more, usesTerminal t0 = true → x.2 = false := by
      refine ⟨m0 ++ more, by rw [hs1]; show t.seen ++ more = _; rw [hm0]; simp, ?_⟩
      intro x hx e
      rcases List.mem_append.mp hx with hx | hx
      · exact hm0' x hx e
      · rw [hs2 x hx]; simp [startReading, newAttributes, huse, e]
    cases hc : r.count with
    | none => exact hseen
    | some count =>
      simp only []
      have hk : PassKept t0 (stopReading t { startReading t with events := r.events, number := r.number, seen := r.seen }) := by
        refine ⟨?_, ?_, h.fd, h.tc, h.sent, hseen⟩
        · show (if newAttributes t ≠ saveAttributes t then saveAttributes t else (startReading t).attrs) = _
          unfold startReading newAttributes saveAttributes
          by_cases hu : usesTerminal t = true
          · simp only [hu, if_true]
            split
            · exact h.attrs
            · rename_i e
              rw [← h.attrs]
              exact Decidable.not_not.mp e
          · simp [hu, h.attrs]
        · intro s hs
          show restoreHandlers _ _ s = _
          rw [restore_disp _ _ s hs]; exact h.disp s hs
      generalize stopReading t { startReading t with events := r.events, number := r.number, seen := r.seen } = t1 at hk
      cases hn : r.number with
      | none => exact hk
      | some s =>
        simp only []
        obtain ⟨k1, k2⟩ := killSelf_kept hk s
        generalize killSelf t1 s = k at k1 k2
        obtain ⟨b, t2⟩ := k
        cases b with
        | false =>
          obtain ⟨⟨bf, a, e⟩, hst⟩ := k2 rfl
          exact ⟨k1, bf, a, e, hst⟩
        | true =>
          simp only []
          split
          · exact ih _ _ k1
          · exact k1

def KeptPass (t0 : Term) : PassEnd → Prop
  | .returned _ t => PassKept t0 t
  | .killed s t => PassKept t0 t ∧ ∃ before a, t.delivered = t0.delivered ++ before ++ [(s, .dfl, a)] ∧ s.stops = false
  | .blocked t => ∃ more, t.seen = t0.seen ++ more ∧ ∀ x ∈ more, usesTerminal t0 = true → x.2 = false

theorem passLoop_kept (t0 : Term) : ∀ (fuel : Nat) (p q : List Byte) (t : Term), PassKept t0 t → KeptPass t0 (passLoop fuel p q t) := by
  intro fuel
  induction fuel with
  | zero => intro p q t h; exact h.seen
  | succ fuel ih =>
    intro p q t h
    rw [passLoop]
    have h1 := getPhrase_kept t0 (t.events.length + 1) p t h
    generalize getPhrase (t.events.length + 1) p t = r at h1
    match r with
    | .killed s t => exact h1
    | .blocked t => exact h1
    | .returned false _ t => exact h1
    | .returned true p t =>
      simp only []
      have h2 := getPhrase_kept t0 (t.events.length + 1) q t h1
      generalize getPhrase (t.events.length + 1) q t = r at h2
      match r with
      | .killed s t => exact h2
      | .blocked t => exact h2
      | .returned false _ t => exact h2
      | .returned true q t =>
        simp only []
        split
        · exact h2
        · exact ih _ _ _ h2

/-! ### Lines -/

theorem killSelf_stop (t : Term) {s : PSig} (hs : s = .tstp ∨ s = .ttin ∨ s = .ttou) (hn : t.number = some s) :
    ∃ t', killSelf t s = (true, t') ∧ t'.number = some s ∧ t'.fd = t.fd ∧ t'.nl = t.nl ∧ t'.tc = t.tc ∧ t'.events = t.events := by
  have : s.stops = true := by rcases hs with rfl | rfl | rfl <;> rfl
  unfold killSelf
  simp only []
  cases t.disp s <;> simp [this, hn]

/-- One line is read as it was entered, however often the program was stopped before. -/
theorem getPhrase_line (l : Line) (hl : l.Fits) (rest : List PEvent) (fuel : Nat) : ∀ (old : List Byte) (t : Term),
    l.begun.length < fuel → t.fd ≠ none → t.nl = true → t.events = l.typed ++ rest →
    ∃ t', getPhrase fuel old t = .returned true l.text t' ∧ t'.events = rest ∧ t'.fd = t.fd ∧ t'.nl = t.nl ∧ t'.tc = t.tc := by
  obtain ⟨begun, text, last⟩ := l
  induction fuel generalizing begun with
  | zero => intro old t h; omega
  | succ fuel ih =>
    intro old t hf hfd hnl he
    rw [getPhrase, if_neg hfd]
    simp only []
    have hst : (startReading t).events = t.events ∧ (startReading t).number = none := ⟨rfl, rfl⟩
    rw [hst.1, hst.2, he]
    obtain ⟨hb, hp, hlen, hlast⟩ := hl
    simp only [] at hb hp hlen hlast
    cases begun with
    | nil =>
      have hty : Line.typed ⟨[], text, last⟩ ++ rest = text.map .byte ++ .byte last :: rest := by simp [Line.typed]
      rw [hty, readPhrase_plain _ _ _ _ _ _ hp (by simpa using hlen), readPhrase_end _ _ _ _ _ hlast]
      simp only [List.nil_append]
      refine ⟨stopReading t { startReading t with events := rest, number := none, seen := (startReading t).seen ++ text.map (·, (startReading t).attrs.echo) ++ [(last, (startReading t).attrs.echo)] }, ?_, rfl, rfl, rfl, rfl⟩
      rw [hnl]
      congr 1
      split <;> rfl
    | cons b bs =>
      obtain ⟨part, s⟩ := b
      obtain ⟨hb1, hb2⟩ := hb (part, s) (List.mem_cons_self ..)
      have hty : Line.typed ⟨(part, s) :: bs, text, last⟩ ++ rest = part.map .byte ++ .sig s :: (Line.typed ⟨bs, text, last⟩ ++ rest) := by
        simp [Line.typed]
      rw [hty, readPhrase_long _ _ _ _ _ _ hb1 (by simp), readPhrase]
      simp only []
      generalize hT : stopReading t { startReading t with events := Line.typed ⟨bs, text, last⟩ ++ rest, number := some s, seen := (startReading t).seen ++ part.map (·, (startReading t).attrs.echo) } = t1
      have hT1 : t1.number = some s ∧ t1.events = Line.typed ⟨bs, text, last⟩ ++ rest ∧ t1.fd = t.fd ∧ t1.nl = t.nl ∧ t1.tc = t.tc := by
        rw [← hT]; exact ⟨rfl, rfl, rfl, rfl, rfl⟩
      obtain ⟨t2, e1, e2, e3, e4, e6, e5⟩ := killSelf_stop t1 hb2 hT1.1
      rw [e1]
      simp only []
      rw [if_pos (by rw [e2]; simpa using hb2)]
      obtain ⟨t', g1, g2, g3, g4, g5⟩ := ih bs ⟨fun q hq => hb q (List.mem_cons_of_mem _ hq), hp, hlen, hlast⟩ (List.take 4095 ([] ++ part)) t2
        (by simp at hf ⊢; omega) (by rw [e3, hT1.2.2.1]; exact hfd) (by rw [e4, hT1.2.2.2.1]; exact hnl) (by rw [e5]; exact hT1.2.1)
      exact ⟨t', g1, g2, by rw [g3, e3, hT1.2.2.1], by rw [g4, e4, hT1.2.2.2.1], by rw [g5, e6, hT1.2.2.2.2]⟩

theorem typed_length (l : Line) : l.begun.length < l.typed.length := by
  unfold Line.typed
  simp only [List.length_append, List.length_map, List.length_cons, List.length_nil]
  have : l.begun.length ≤ (l.begun.flatMap (fun p => p.1.map PEvent.byte ++ [PEvent.sig p.2])).length := by
    generalize l.begun = b
    induction b with
    | nil => simp
    | cons x xs ih => simp only [List.flatMap_cons, List.length_append, List.length_cons, List.length_nil]; omega
  omega

/-- Text without an end of line: the program waits. -/
theorem getPhrase_waits (fuel : Nat) (old : List Byte) (t : Term) (rest : List Byte) (hr : Plain rest) (hfd : t.fd ≠ none) (he : t.events = rest.map .byte) :
    ∃ t', getPhrase (fuel + 1) old t = .blocked t' := by
  rw [getPhrase, if_neg hfd]
  simp only []
  have hst : (startReading t).events = t.events ∧ (startReading t).number = none := ⟨rfl, rfl⟩
  rw [hst.1, hst.2, he]
  have := readPhrase_long (startReading t).attrs.echo [] none rest [] (startReading t).seen hr (by simp)
  rw [List.append_nil] at this
  rw [this, readPhrase]
  exact ⟨_, rfl⟩

theorem passLoop_lines (rest : List PEvent) (fuel : Nat) : ∀ (ls : List Line) (p q : List Byte) (t : Term),
    (∀ l ∈ ls, l.Fits) → ls.length < fuel → t.fd ≠ none → t.nl = true → t.events = ls.flatMap Line.typed ++ rest →
    (∀ text more, firstPair ls = some (text, more) → ∃ t', passLoop fuel p q t = .returned (some text) t' ∧ t'.events = more.flatMap Line.typed ++ rest) ∧
    (firstPair ls = none → ∀ r, rest = r.map .byte → Plain r → ∃ t', passLoop fuel p q t = .blocked t') := by
  induction fuel with
  | zero => intro ls p q t _ h; omega
  | succ fuel ih =>
    intro ls p q t hf hl hfd hnl he
    rw [passLoop]
    match ls with
    | [] =>
      refine ⟨by intro _ _ h; simp [firstPair] at h, ?_⟩
      intro _ r hr hp
      obtain ⟨t', h⟩ := getPhrase_waits t.events.length p t r hp hfd (by rw [he, hr]; simp)
      rw [h]; exact ⟨t', rfl⟩
    | [a] =>
      refine ⟨by intro _ _ h; simp [firstPair] at h, ?_⟩
      intro _ r hr hp
      have ha := typed_length a
      obtain ⟨t1, h1, h2, h3, h4, h5⟩ := getPhrase_line a (hf a (by simp)) rest (t.events.length + 1) p t (by rw [he]; simp; omega) hfd hnl (by rw [he]; simp)
      rw [h1]; simp only []
      obtain ⟨t', h⟩ := getPhrase_waits t1.events.length q t1 r hp (by rw [h3]; exact hfd) (by rw [h2, hr])
      rw [h]; exact ⟨t', rfl⟩
    | a :: b :: ls =>
      have ha := typed_length a
      have hb := typed_length b
      obtain ⟨t1, h1, h2, h3, h4, h5⟩ := getPhrase_line a (hf a (by simp)) (b.typed ++ (ls.flatMap Line.typed ++ rest)) (t.events.length + 1) p t
        (by rw [he]; simp; omega) hfd hnl (by rw [he]; simp)
      obtain ⟨t2, g1, g2, g3, g4, g5⟩ := getPhrase_line b (hf b (by simp)) (ls.flatMap Line.typed ++ rest) (t1.events.length + 1) q t1
        (by rw [h2]; simp; omega) (by rw [h3]; exact hfd) (by rw [h4]; exact hnl) h2
      rw [h1]; simp only []
      rw [g1]; simp only []
      by_cases hab : a.text = b.text
      · rw [if_pos hab]
        refine ⟨?_, by simp [firstPair, hab]⟩
        intro text more hfp
        rw [firstPair, if_pos hab] at hfp
        simp only [Option.some.injEq, Prod.mk.injEq] at hfp
        exact ⟨t2, by rw [hfp.1], by rw [g2, hfp.2]⟩
      · rw [if_neg hab, firstPair, if_neg hab]
        exact ih ls _ _ t2 (fun l hl => hf l (by simp [hl])) (by simp at hl; omega) (by rw [g3, h3]; exact hfd) (by rw [g4, h4]; exact hnl) g2

/-! ### C136 -/

/-- **C136** (partial: lines of at most 4095 bytes, no end of the input, no errors and no signals but those that stop the program; see the
violations below) For all lines a user enters, each begun and stopped any number of times, on every terminal: `GetPassphrase` returns the text
of the first pair of equal lines and reads nothing beyond it; if there is none yet, it goes on waiting. -/
theorem C136_entered_partial (t : Term) (ls : List Line) (rest : List PEvent) (hf : ∀ l ∈ ls, l.Fits) (hfd : t.fd ≠ none) (hnl : t.nl = true)
    (he : t.events = ls.flatMap Line.typed ++ rest) :
    (∀ text more, firstPair ls = some (text, more) → ∃ t', getPassphrase t = .returned (some text) t' ∧ t'.events = more.flatMap Line.typed ++ rest) ∧
    (firstPair ls = none → ∀ r, rest = r.map .byte → Plain r → ∃ t', getPassphrase t = .blocked t') := by
  refine passLoop_lines rest _ ls _ _ t hf ?_ hfd hnl he
  rw [he, List.length_append]
  have : ls.length ≤ (ls.flatMap Line.typed).length := by
    clear he hf
    induction ls with
    | nil => simp
    | cons l ls ih =>
      have := typed_length l
      simp only [List.flatMap_cons, List.length_append, List.length_cons]; omega
  omega

/-- An ordinary terminal. -/
def plainTerm (es : List PEvent) : Term := ⟨some 3, true, true, ⟨true, false, 7⟩, fun _ => .dfl, none, es, [], []⟩

/-- Two different lines, then the same line twice, once stopped in the middle. -/
example : ∃ t', getPassphrase (plainTerm ([⟨[], [97], 10⟩, ⟨[], [98], 13⟩, ⟨[([97, 98], .tstp)], [99], 10⟩, ⟨[], [99], 10⟩].flatMap Line.typed ++ [])) = .returned (some [99]) t' ∧
    t'.events = [].flatMap Line.typed ++ [] :=
  (C136_entered_partial _ [⟨[], [97], 10⟩, ⟨[], [98], 13⟩, ⟨[([97, 98], .tstp)], [99], 10⟩, ⟨[], [99], 10⟩] [] (by simp [Line.Fits, Plain]) (by decide) rfl rfl).1 [99] [] rfl

/-- **C136** (partial: the case of no terminal) Without a terminal no passphrase is returned, and nothing is read. -/
theorem C136_unavailable_partial (t : Term) (h : t.fd = none) : ∃ t', getPassphrase t = .returned none t' ∧ t'.events = t.events ∧ t'.seen = t.seen := by
  unfold getPassphrase
  rw [passLoop, getPhrase, if_pos h]
  exact ⟨_, rfl, rfl, rfl⟩

example : ({ plainTerm [.byte 97, .byte 10] with fd := none } : Term).fd = none := rfl

/-- **C136 is false** at the end of the input: if the terminal is closed before anything is entered, the empty passphrase is returned as if it
had been entered twice. -/
theorem C136_eof_violated : ∃ t', getPassphrase (plainTerm [.eof, .eof]) = .returned (some []) t' ∧ ¬ Entered [] [.eof, .eof] := by
  refine ⟨_, rfl, ?_⟩
  rintro ⟨bf, e, af, h, _⟩
  have : PEvent.byte e ∈ [PEvent.eof, .eof] := by rw [h]; simp
  simp at this

/-- **C136 is false** if reading fails: `count` is overwritten by the result of writing the newline, so what was read before the error is
returned as a passphrase that was entered. -/
theorem C136_error_violated : ∃ t', getPassphrase (plainTerm [.byte 97, .err, .byte 97, .err]) = .returned (some [97]) t' ∧
    ¬ Entered [97] [.byte 97, .err, .byte 97, .err] := by
  refine ⟨_, rfl, ?_⟩
  rintro ⟨bf, e, af, h, he⟩
  have : PEvent.byte e ∈ [PEvent.byte 97, .err, .byte 97, .err] := by rw [h]; simp
  rcases he with rfl | rfl <;> simp at this

/-- **C136 is false** if a signal the program ignores interrupts reading: what was read before it is returned as a passphrase that was entered. -/
theorem C136_ignored_violated : ∃ t', getPassphrase { plainTerm [.byte 97, .sig .hup, .byte 97, .sig .hup] with disp := fun _ => .ign } = .returned (some [97]) t' ∧
    ¬ Entered [97] [.byte 97, .sig .hup, .byte 97, .sig .hup] := by
  refine ⟨_, rfl, ?_⟩
  rintro ⟨bf, e, af, h, he⟩
  have : PEvent.byte e ∈ [PEvent.byte 97, .sig .hup, .byte 97, .sig .hup] := by rw [h]; simp
  rcases he with rfl | rfl <;> simp at this

theorem getPhrase_cut (old : List Byte) (t : Term) (text : List Byte) (rest : List PEvent) (fuel : Nat) (hp : Plain text) (hfd : t.fd ≠ none) (hnl : t.nl = true)
    (he : t.events = text.map .byte ++ .byte 10 :: rest) :
    ∃ t', getPhrase (fuel + 1) old t = .returned true (text.take 4095) t' ∧ t'.events = rest ∧ t'.fd = t.fd ∧ t'.nl = t.nl := by
  rw [getPhrase, if_neg hfd]
  simp only []
  have hst : (startReading t).events = t.events ∧ (startReading t).number = none := ⟨rfl, rfl⟩
  rw [hst.1, hst.2, he, readPhrase_long _ _ _ _ _ _ hp (by simp), readPhrase_end _ _ _ _ _ (.inl rfl)]
  simp only [List.nil_append]
  refine ⟨stopReading t { startReading t with events := rest, number := none, seen := (startReading t).seen ++ text.map (·, (startReading t).attrs.echo) ++ [(10, (startReading t).attrs.echo)] }, ?_, rfl, rfl, rfl⟩
  rw [hnl]
  congr 1
  split <;> rfl

theorem passphrase_cut (x y : List Byte) (hx : Plain x) (hy : Plain y) (hxy : x.take 4095 = y.take 4095) :
    ∃ t', getPassphrase (plainTerm (x.map .byte ++ .byte 10 :: (y.map .byte ++ [.byte 10]))) = .returned (some (x.take 4095)) t' := by
  unfold getPassphrase
  generalize ht : plainTerm (x.map .byte ++ .byte 10 :: (y.map .byte ++ [.byte 10])) = t
  have h0 : t.fd ≠ none ∧ t.nl = true ∧ t.events = x.map .byte ++ .byte 10 :: (y.map .byte ++ [.byte 10]) := by
    rw [← ht]; exact ⟨by simp [plainTerm], rfl, rfl⟩
  obtain ⟨t1, h1, h2, h3, h4⟩ := getPhrase_cut (List.replicate wizardPathExtent 0) t x (y.map .byte ++ [.byte 10]) t.events.length hx h0.1 h0.2.1 h0.2.2
  obtain ⟨t2, g1, g2, g3, g4⟩ := getPhrase_cut (List.replicate wizardPathExtent 0) t1 y [] t1.events.length hy (by rw [h3]; exact h0.1) (by rw [h4]; exact h0.2.1) h2
  rw [passLoop, h1]
  simp only []
  rw [g1]
  simp only []
  rw [if_pos hxy]
  exact ⟨t2, rfl⟩

theorem differ_last (n : Nat) : ∃ x y : List Byte, x.length = n + 1 ∧ y.length = n + 1 ∧ x ≠ y ∧ Plain x ∧ Plain y ∧ x.take n = y.take n := by
  have hp : ∀ (x : Byte), x ≠ 10 ∧ x ≠ 13 → Plain (List.replicate n 97 ++ [x]) := by
    intro x hx y hy
    rcases List.mem_append.mp hy with hy | hy
    · rw [List.eq_of_mem_replicate hy]; decide
    · rw [List.mem_singleton.mp hy]; exact hx
  refine ⟨List.replicate n 97 ++ [98], List.replicate n 97 ++ [99], by simp, by simp, ?_, hp _ (by decide), hp _ (by decide), ?_⟩
  · intro e
    have := List.append_cancel_left e
    revert this; decide
  · rw [List.take_left' (by simp), List.take_left' (by simp)]

/-- **C136 is false** for lines of 4096 bytes, which the prompt invites: only 4095 are kept, so two passphrases that differ in the last byte are
accepted as the same, and what is returned is neither. -/
theorem C136_long_violated : ∃ x y p t', x.length = 4096 ∧ y.length = 4096 ∧ x ≠ y ∧ Plain x ∧ Plain y ∧
    getPassphrase (plainTerm (x.map .byte ++ .byte 10 :: (y.map .byte ++ [.byte 10]))) = .returned (some p) t' ∧ p ≠ x ∧ p ≠ y := by
  obtain ⟨x, y, hx, hy, hne, px, py, htk⟩ := differ_last 4095
  obtain ⟨t', h⟩ := passphrase_cut x y px py htk
  have hl : (x.take 4095).length = 4095 := by rw [List.length_take]; omega
  exact ⟨x, y, x.take 4095, t', hx, hy, hne, px, py, h, fun e => by rw [e] at hl; omega, fun e => by rw [e] at hl; omega⟩

/-! ### C137 -/

/-- **C137** (partial: all signals but SIGTTOU, see `C137_ttou_violated`) Whatever the user does and whichever signals arrive: when
`GetPassphrase` returns, or the process dies of a signal it waited for, the attributes of the terminal and the dispositions of the signals are
those from before; each signal that arrived was then sent again with them in place; and the process dies only of a signal whose disposition is to die. -/
theorem C137_restored_partial (t : Term) :
    (∀ p t', getPassphrase t = .returned p t' → t'.attrs = t.attrs ∧ (∀ s, s ≠ .ttou → t'.disp s = t.disp s) ∧
      ∃ more, t'.delivered = t.delivered ++ more ∧ ∀ x ∈ more, x.2.2 = t.attrs ∧ (x.1 ≠ .ttou → x.2.1 = t.disp x.1)) ∧
    (∀ s t', getPassphrase t = .killed s t' → t'.attrs = t.attrs ∧ (∀ s, s ≠ .ttou → t'.disp s = t.disp s) ∧ t.disp s = .dfl ∧ s.stops = false) := by
  have h := passLoop_kept t (t.events.length + 1) (List.replicate wizardPathExtent 0) (List.replicate wizardPathExtent 0) t (PassKept.refl t)
  refine ⟨?_, ?_⟩
  · intro p t' e
    rw [show passLoop (t.events.length + 1) (List.replicate wizardPathExtent 0) (List.replicate wizardPathExtent 0) t = _ from e] at h
    exact ⟨h.attrs, h.disp, h.sent⟩
  · intro s t' e
    rw [show passLoop (t.events.length + 1) (List.replicate wizardPathExtent 0) (List.replicate wizardPathExtent 0) t = _ from e] at h
    obtain ⟨k, bf, a, hd, hs⟩ := h
    obtain ⟨more, m1, m2⟩ := k.sent
    have hm : more = bf ++ [(s, .dfl, a)] := by
      rw [m1, List.append_assoc] at hd; exact List.append_cancel_left hd
    have := (m2 (s, .dfl, a) (by rw [hm]; simp)).2 (by intro e; rw [show s = .ttou from e] at hs; cases hs)
    exact ⟨k.attrs, k.disp, this.symm, hs⟩

/-- Interrupted by SIGINT in the middle: killed, with the terminal as before. -/
example : ∃ t', getPassphrase (plainTerm [.byte 97, .sig .int]) = .killed .int t' ∧ t'.attrs = ⟨true, false, 7⟩ := ⟨_, rfl, rfl⟩

/-- **C137 is false** for SIGTTOU: its disposition is saved but never restored, so that after an undisturbed passphrase the program's own
disposition is lost, and a program that is to stop at SIGTTOU no longer does. -/
theorem C137_ttou_violated : ∃ t', getPassphrase (plainTerm [.byte 97, .byte 10, .byte 97, .byte 10]) = .returned (some [97]) t' ∧
    (plainTerm [.byte 97, .byte 10, .byte 97, .byte 10]).disp .ttou = .dfl ∧ t'.disp .ttou = .ours := ⟨_, rfl, rfl, rfl⟩

/-! ### C138 -/

/-- Whether the terminal showed what was read. -/
def _root_.Wizard.PassEnd.term : PassEnd → Term
  | .returned _ t => t
  | .killed _ t => t
  | .blocked t => t

/-- **C138** (partial: the terminal must not be opened as descriptor 0 and must have attributes, see `C138_stdin_violated`) Whatever the user does and
whichever signals arrive, no byte that `GetPassphrase` reads is echoed by the terminal, whether it returns, is killed or still waits. -/
theorem C138_hidden_partial (t : Term) (fd : Nat) (hfd : t.fd = some fd) (h0 : fd ≠ 0) (htc : t.tc = true) :
    ∃ more, (getPassphrase t).term.seen = t.seen ++ more ∧ ∀ x ∈ more, x.2 = false := by
  have h := passLoop_kept t (t.events.length + 1) (List.replicate wizardPathExtent 0) (List.replicate wizardPathExtent 0) t (PassKept.refl t)
  have hu : usesTerminal t = true := by simp [usesTerminal, hfd, h0, htc]
  unfold getPassphrase
  generalize passLoop (t.events.length + 1) (List.replicate wizardPathExtent 0) (List.replicate wizardPathExtent 0) t = r at h
  match r with
  | .returned p t' => obtain ⟨m, h1, h2⟩ := h.seen; exact ⟨m, h1, fun x hx => h2 x hx hu⟩
  | .killed s t' => obtain ⟨m, h1, h2⟩ := h.1.seen; exact ⟨m, h1, fun x hx => h2 x hx hu⟩
  | .blocked t' => obtain ⟨m, h1, h2⟩ := h; exact ⟨m, h1, fun x hx => h2 x hx hu⟩

/-- Bytes are read, and some signal arrives late. -/
example : (getPassphrase (plainTerm [.byte 97, .late .tstp, .byte 10, .byte 98])).term.seen = [(97, false), (10, false), (98, false)] := rfl

/-- **C138 is false** for a program started with its standard input closed: the terminal is then opened as descriptor 0, taken for the standard
input, and the passphrase is echoed while it is entered. -/
theorem C138_stdin_violated : ∃ t', getPassphrase { plainTerm [.byte 97, .byte 10, .byte 97, .byte 10] with fd := some 0 } = .returned (some [97]) t' ∧
    t'.seen = [(97, true), (10, true), (97, true), (10, true)] := ⟨_, rfl, rfl⟩

end Wizard.Props
