import Verif.Spec.LogFile
/-! C125: log files. -/
namespace Wizard.Props
open Wizard Wizard.Spec.Log

theorem limitBytes_small {limit : Nat} (h : limit < 2 ^ 43) : limitBytes limit = ((1024 * 1024 * limit : Nat) : Int) := by
  unfold limitBytes
  have h1 : (1024 * 1024 * (limit : Int)) = ((1024 * 1024 * limit : Nat) : Int) := by simp
  rw [h1, Int.bmod_eq_of_le]
  · have : ((2 ^ 64 : Nat) : Int) = 18446744073709551616 := by decide
    omega
  · have : ((2 ^ 64 : Nat) : Int) = 18446744073709551616 := by decide
    have : (2 ^ 43 : Nat) = 8796093022208 := by decide
    omega

/-- The contents of file `n` after sessions. -/
def diskOf (before : LogSink) (ss : List Session) (n : List Byte) : Option (List Byte) :=
  if ss.any (fun s => s.name == n) then some ((before.disk n).getD [] ++ written n ss) else before.disk n

theorem diskOf_getD (before : LogSink) (ss : List Session) (n : List Byte) : (diskOf before ss n).getD [] = (before.disk n).getD [] ++ written n ss := by
  unfold diskOf
  split
  · rfl
  · rename_i h
    have : written n ss = [] := by
      unfold written
      rw [List.filter_eq_nil_iff.mpr]; rfl
      intro x hx e
      exact h (List.any_eq_true.mpr ⟨x, hx, e⟩)
    rw [this, List.append_nil]

theorem diskOf_new (before : LogSink) (ss : List Session) (x : Session) (n : List Byte) :
    diskOf before (ss ++ [x]) n = if n = x.name then some ((diskOf before ss n).getD [] ++ x.text) else diskOf before ss n := by
  by_cases h : n = x.name
  · rw [if_pos h, diskOf_getD]
    unfold diskOf
    rw [if_pos (by rw [List.any_append]; simp [h])]
    unfold written
    rw [List.filter_append, List.flatMap_append]
    simp [h]
  · rw [if_neg h]
    have h' : (x.name == n) = false := by simp only [beq_eq_false_iff_ne]; exact fun e => h e.symm
    unfold diskOf written
    rw [List.any_append, List.filter_append]
    simp [h']

theorem diskOf_grow (before : LogSink) (ss : List Session) (x y : Session) (t : List Byte) (h1 : y.name = x.name) (h2 : y.text = x.text ++ t) (n : List Byte) :
    diskOf before (ss ++ [y]) n = if n = x.name then some ((diskOf before (ss ++ [x]) n).getD [] ++ t) else diskOf before (ss ++ [x]) n := by
  rw [diskOf_new, diskOf_new, h1, h2]
  by_cases h : n = x.name
  · simp [h]
  · simp [h]

theorem diskOf_none (before : LogSink) (ss : List Session) (n : List Byte) : diskOf before ss n = none ↔ before.disk n = none ∧ ∀ x ∈ ss, x.name ≠ n := by
  unfold diskOf
  split
  · rename_i h
    obtain ⟨x, hx, e⟩ := List.any_eq_true.mp h
    constructor
    · intro h; cases h
    · intro h; exact absurd (eq_of_beq e) (h.2 x hx)
  · rename_i h
    constructor
    · intro e; exact ⟨e, fun x hx e => h (List.any_eq_true.mpr ⟨x, hx, by rw [e]; exact beq_self_eq_true _⟩)⟩
    · intro h; exact h.1

/-- What is claimed of session `s` behind the sessions `a`. -/
structure SessionOk (limit : Nat) (before : LogSink) (a : List Session) (s : Session) : Prop where
  some : s.events ≠ []
  fresh : s.fresh = true ↔ before.disk s.name = none ∧ ∀ x ∈ a, x.name ≠ s.name
  limit : s.fresh = true → 2 ≤ s.events.length → ({ s with events := s.events.dropLast, closed := false } : Session).text.length ≤ 1024 * 1024 * limit

structure LogFileInv (names : Nat → List Byte) (limit : Nat) (before s : LogSink) (done : List Session) (now : Option Session) (logged : List (List Byte)) :
    Prop where
  events : (done ++ now.toList).flatMap Session.events = logged
  names : (done ++ now.toList).map Session.name = (List.range (done ++ now.toList).length).map (fun i => names (before.generation + i))
  generation : s.generation = before.generation + (done ++ now.toList).length
  ok : ∀ a x b, done ++ now.toList = a ++ x :: b → SessionOk limit before a x
  closed : ∀ x ∈ done, x.closed = true
  opened : ∀ x ∈ now, x.closed = false
  file : s.file = now.map Session.name
  disk : ∀ n, s.disk n = diskOf before (done ++ now.toList) n

theorem snoc_split {α : Type} {l a b : List α} {x y : α} (h : l ++ [y] = a ++ x :: b) : (b = [] ∧ x = y ∧ a = l) ∨ ∃ c, b = c ++ [y] ∧ l = a ++ x :: c := by
  rcases List.eq_nil_or_concat b with hb | ⟨c, z, hb⟩
  · left
    subst hb
    have := List.append_inj' h rfl
    exact ⟨rfl, by simpa using this.2.symm, this.1.symm⟩
  · right
    rw [hb, List.concat_eq_append, ← List.cons_append, ← List.append_assoc] at h
    have := List.append_inj' h rfl
    refine ⟨c, ?_, this.1⟩
    rw [hb, List.concat_eq_append, show y = z by simpa using this.2]

theorem logInv_close {names limit before s done now logged} (h : LogFileInv names limit before s done now logged) :
    ∃ done', LogFileInv names limit before s.close done' none logged := by
  cases now with
  | none =>
    refine ⟨done, ?_⟩
    have : s.close = s := by unfold LogSink.close; rw [h.file]; rfl
    rw [this]; exact h
  | some x =>
    have hx : x.closed = false := h.opened x rfl
    refine ⟨done ++ [{ x with closed := true }], ?_⟩
    have hc : s.close = { s.append x.name (ascText "</log>\n") with file := none } := by
      unfold LogSink.close; rw [h.file]; rfl
    rw [hc]
    have he := h.events
    have hn := h.names
    have hg := h.generation
    simp only [Option.toList, List.length_append, List.length_cons, List.length_nil, List.append_nil] at he hn hg
    constructor
    · simp only [Option.toList, List.append_nil]; rw [← he]; simp
    · simp only [Option.toList, List.append_nil]; rw [List.length_append, List.length_singleton, ← hn]; simp
    · simp only [Option.toList, List.append_nil]; simpa [LogSink.append] using hg
    · intro a y b e
      simp only [Option.toList, List.append_nil] at e
      rcases snoc_split e with ⟨_, e2, e3⟩ | ⟨c, _, e2⟩
      · subst e2; subst e3
        have := h.ok a x [] rfl
        exact ⟨this.some, this.fresh, this.limit⟩
      · exact h.ok a y (c ++ [x]) (by simp [Option.toList, e2])
    · intro y hy
      rcases List.mem_append.mp hy with hy | hy
      · exact h.closed y hy
      · rw [List.mem_singleton.mp hy]
    · intro y hy; cases hy
    · rfl
    · intro n
      simp only [Option.toList, List.append_nil]
      rw [diskOf_grow before done x { x with closed := true } (ascText "</log>\n") rfl (by simp [Session.text, hx]) n]
      have hd := h.disk n
      simp only [Option.toList] at hd
      rw [← hd]; rfl

theorem logInv_rotate {names limit before s done now logged} (hl : limit < 2 ^ 43) (h : LogFileInv names limit before s done now logged) :
    ∃ s' done' now', s.rotate limit = .ok s' ∧ LogFileInv names limit before s' done' now' logged ∧
      (∀ x ∈ now', ((s'.disk x.name).getD []).length ≤ 1024 * 1024 * limit) := by
  unfold LogSink.rotate
  rw [limitBytes_small hl]
  cases now with
  | none =>
    have hs : s.size = 0 := by unfold LogSink.size; rw [h.file]; rfl
    rw [if_neg (by rw [hs]; omega)]
    exact ⟨s, done, none, rfl, h, fun x hx => by cases hx⟩
  | some x =>
    have hf : s.file = some x.name := h.file
    by_cases hb : (s.size : Int) > ((1024 * 1024 * limit : Nat) : Int)
    · rw [if_pos hb, hf]
      obtain ⟨d, hd⟩ := logInv_close h
      have hc : s.close = { s.append x.name (ascText "</log>\n") with file := none } := by
        unfold LogSink.close; rw [hf]
      rw [hc] at hd
      exact ⟨_, d, none, rfl, hd, fun x hx => by cases hx⟩
    · rw [if_neg hb]
      refine ⟨s, done, some x, rfl, h, ?_⟩
      intro y hy
      cases hy
      have : s.size = ((s.disk x.name).getD []).length := by unfold LogSink.size; rw [hf]
      omega

theorem text_add (x : Session) (t : List Byte) (hx : x.closed = false) : ({ x with events := x.events ++ [t] } : Session).text = x.text ++ line t := by
  simp [Session.text, hx]

theorem logInv_event {names limit before s done now logged} (hl : limit < 2 ^ 43) (h : LogFileInv names limit before s done now logged) (t : List Byte) (opens : Bool) :
    ∃ s' b done' now', s.event names limit t opens = .ok (s', b) ∧ LogFileInv names limit before s' done' now' (if b then logged ++ [t] else logged) := by
  obtain ⟨s1, done, now, e1, h, hsz⟩ := logInv_rotate hl h
  unfold LogSink.event
  rw [e1, Res.ok_bind]
  have he := h.events
  have hn := h.names
  have hg := h.generation
  cases now with
  | some x =>
    have hf : s1.file = some x.name := h.file
    have hx : x.closed = false := h.opened x rfl
    rw [hf]
    simp only [Option.toList, List.length_append, List.length_cons, List.length_nil] at he hn hg
    refine ⟨_, true, done, some { x with events := x.events ++ [t] }, rfl, ?_⟩
    constructor
    · simp only [Option.toList, if_true]; rw [← he]; simp
    · simp only [Option.toList, List.length_append, List.length_cons, List.length_nil]; rw [← hn]; simp
    · simp only [Option.toList, List.length_append, List.length_cons, List.length_nil]; exact hg
    · intro a y b e
      simp only [Option.toList] at e
      rcases snoc_split e with ⟨_, e2, e3⟩ | ⟨c, _, e2⟩
      · subst e2; subst e3
        have hok := h.ok a x [] rfl
        refine ⟨by simp, hok.fresh, ?_⟩
        intro hfr _
        have hsize := hsz x rfl
        have hd := h.disk x.name
        simp only [Option.toList] at hd
        rw [hd, diskOf_getD] at hsize
        have hfr' := hok.fresh.mp hfr
        have hw : (written x.name (a ++ [x])) = x.text := by
          unfold written
          rw [List.filter_append, List.filter_eq_nil_iff.mpr]
          · simp
          · intro z hz e; exact hfr'.2 z hz (eq_of_beq e)
        rw [hw, hfr'.1] at hsize
        simp only [List.dropLast_concat]
        have : ({ x with closed := false } : Session) = x := by cases x; simp_all
        simpa [this] using hsize
      · exact h.ok a y (c ++ [x]) (by simp [Option.toList, e2])
    · exact h.closed
    · intro y hy; cases hy; exact hx
    · exact hf
    · intro n
      simp only [Option.toList]
      rw [diskOf_grow before done x { x with events := x.events ++ [t] } (line t) rfl (text_add x t hx) n]
      have hd := h.disk n
      simp only [Option.toList] at hd
      rw [← hd]; rfl
  | none =>
    have hf : s1.file = none := h.file
    rw [hf]
    simp only [Option.toList, List.append_nil] at he hn hg
    by_cases ho : opens = false
    · rw [if_pos ho]
      exact ⟨s1, false, done, none, rfl, h⟩
    · rw [if_neg ho]
      have hd : ∀ n, s1.disk n = diskOf before done n := by
        intro n; have := h.disk n; simpa [Option.toList] using this
      refine ⟨_, true, done, some ⟨names s1.generation, (s1.disk (names s1.generation)).isNone, [t], false⟩, rfl, ?_⟩
      constructor
      · simp only [Option.toList, if_true]; rw [← he]; simp
      · simp only [Option.toList, List.length_append, List.length_cons, List.length_nil, List.map_append, hn, List.range_succ, hg]; rfl
      · simp only [Option.toList, List.length_append, List.length_cons, List.length_nil]
        split <;> (show s1.generation + 1 = _) <;> omega
      · intro a y b e
        simp only [Option.toList] at e
        rcases snoc_split e with ⟨_, e2, e3⟩ | ⟨c, _, e2⟩
        · subst e2; subst e3
          refine ⟨by simp, ?_, fun _ hx => by simp at hx⟩
          simp only [Option.isNone_iff_eq_none]
          rw [hd, diskOf_none]
        · exact h.ok a y c (by simp [Option.toList, e2])
      · exact h.closed
      · intro y hy; cases hy; rfl
      · split <;> rfl
      · intro n
        simp only [Option.toList]
        rw [diskOf_new, ← hd]
        by_cases hx : (s1.disk (names s1.generation)).isSome = false
        · have hnone : s1.disk (names s1.generation) = none := by simpa using hx
          simp only [hx, if_true, LogSink.append]
          by_cases hnn : n = names s1.generation
          · subst hnn; simp [hnone, Session.text, line, logHeader]
          · simp [hnn]
        · simp only [hx, LogSink.append]
          have hsome : (s1.disk (names s1.generation)).isNone = false := by
            cases hq : s1.disk (names s1.generation) <;> simp_all
          by_cases hnn : n = names s1.generation
          · subst hnn; simp [hsome, Session.text, line]
          · simp [hnn]

theorem logInv_run {names limit before} (hl : limit < 2 ^ 43) : ∀ (cs : List LogCall) {s done now logged}, LogFileInv names limit before s done now logged →
    ∃ s' ts done' now', s.run names limit cs = .ok (s', ts) ∧ LogFileInv names limit before s' done' now' (logged ++ ts)
  | [], s, done, now, logged, h => ⟨s, [], done, now, rfl, by rw [List.append_nil]; exact h⟩
  | .close :: cs, s, done, now, logged, h => by
    obtain ⟨d, h1⟩ := logInv_close h
    exact logInv_run hl cs h1
  | .event t o :: cs, s, done, now, logged, h => by
    obtain ⟨s1, b, d1, n1, e1, h1⟩ := logInv_event hl h t o
    obtain ⟨s2, ts, d2, n2, e2, h2⟩ := logInv_run hl cs h1
    refine ⟨s2, _, d2, n2, by rw [LogSink.run, e1, Res.ok_bind]; simp only []; rw [e2]; rfl, ?_⟩
    cases b
    · simpa using h2
    · simpa using h2

/-- **C125** With a limit below 2^43 (megabytes), whatever a program logs and whenever it closes the log: nothing crashes, and the files
tell exactly the events for which the call succeeded, in their order, each new file within the limit but for its last entry. -/
theorem C125_kept_partial (names : Nat → List Byte) (limit : Nat) (hl : limit < 2 ^ 43) (before : LogSink) (h0 : before.file = none) (calls : List LogCall) :
    ∃ after logged, before.run names limit calls = .ok (after, logged) ∧ Tells names limit before after logged := by
  have hi : LogFileInv names limit before before [] none [] := by
    refine ⟨rfl, rfl, rfl, ?_, ?_, ?_, h0, fun n => rfl⟩
    · intro a x b e; simp [Option.toList] at e
    · intro x hx; cases hx
    · intro x hx; cases hx
  obtain ⟨s, ts, done, now, e, h⟩ := logInv_run hl calls hi
  refine ⟨s, ts, e, done ++ now.toList, by simpa using h.events, h.names, ?_, h.disk⟩
  intro a x b e
  have hok := h.ok a x b e
  refine ⟨hok.some, ?_, hok.fresh, hok.limit⟩
  intro hb
  cases now with
  | none => exact h.closed x (by simp only [Option.toList, List.append_nil] at e; rw [e]; simp)
  | some y =>
    simp only [Option.toList] at e
    rcases snoc_split e with ⟨e1, _, _⟩ | ⟨c, _, e2⟩
    · exact absurd e1 hb
    · exact h.closed x (by rw [e2]; simp)

/-- Nothing yet. -/
def noFiles : LogSink := ⟨none, fun _ => none, 0⟩

example : (noFiles.run (fun g => [BitVec.ofNat 8 g]) 0 [.event (ascText "one") true, .event (ascText "two") false, .event (ascText "three") true, .close]).bind
    (fun r => .ok (r.2, r.1.disk [0], r.1.disk [1])) = .ok ([ascText "one", ascText "three"],
      some (logHeader ++ ascText "<log>\n  <event>one</event>\n</log>\n"), some (logHeader ++ ascText "<log>\n  <event>three</event>\n</log>\n")) := by
  decide +kernel

/-- **C125 is false** of the limit "unlimited" (the largest number, log.c:1620): the first event to a file crashes.  (The product overflows to a
negative number, and 0 is more.) -/
theorem C125_unlimited_violated (names : Nat → List Byte) (before : LogSink) (h0 : before.file = none) (text : List Byte) (opens : Bool) :
    before.run names (2 ^ 64 - 1) [.event text opens] = .ub := by
  have hb : limitBytes (2 ^ 64 - 1) = -1048576 := by decide +kernel
  have hs : before.size = 0 := by unfold LogSink.size; rw [h0]
  have : before.rotate (2 ^ 64 - 1) = .ub := by
    unfold LogSink.rotate
    rw [hb, hs, if_pos (by decide), h0]
  rw [LogSink.run, LogSink.event, this]; rfl

/-- The room that the files of all generations take. -/
def room (names : Nat → List Byte) (generations : Nat) (s : LogSink) : Nat :=
  ((List.range generations).map fun g => ((s.disk (names g)).getD []).length).sum

theorem sum_grows {f f' : Nat → Nat} (h : ∀ g, f g ≤ f' g) (l : List Nat) : (l.map f).sum ≤ (l.map f').sum := by
  induction l with
  | nil => exact Nat.le_refl _
  | cons a l ih => have := h a; simp only [List.map_cons, List.sum_cons]; omega

theorem sum_grows_by {f f' : Nat → Nat} (h : ∀ g, f g ≤ f' g) {g k : Nat} (hk : f g + k ≤ f' g) : ∀ (l : List Nat), g ∈ l →
    (l.map f).sum + k ≤ (l.map f').sum
  | a :: l, hg => by
    have h1 := h a
    have h2 := sum_grows h l
    simp only [List.map_cons, List.sum_cons]
    rcases List.mem_cons.mp hg with e | e
    · subst e; omega
    · have := sum_grows_by h hk l e; omega

theorem room_append (names : Nat → List Byte) (generations : Nat) (s : LogSink) (g : Nat) (hg : g < generations) (text : List Byte) :
    room names generations s + text.length ≤ room names generations (s.append (names g) text) := by
  unfold room
  refine sum_grows_by ?_ (g := g) ?_ _ (List.mem_range.mpr hg)
  · intro k
    simp only [LogSink.append]
    split <;> simp
  · simp [LogSink.append]

theorem room_event (names : Nat → List Byte) (generations : Nat) (hg : 0 < generations) (hn : ∀ g, names g = names (g % generations))
    (limit : Nat) (hl : limit < 2 ^ 43) (s : LogSink) (hf : ∀ n ∈ s.file, ∃ g, g < generations ∧ n = names g) (text : List Byte) :
    ∃ s', s.event names limit text true = .ok (s', true) ∧ room names generations s + 1 ≤ room names generations s' ∧
      ∀ n ∈ s'.file, ∃ g, g < generations ∧ n = names g := by
  have hr : ∃ s1, s.rotate limit = .ok s1 ∧ room names generations s ≤ room names generations s1 ∧ ∀ n ∈ s1.file, ∃ g, g < generations ∧ n = names g := by
    unfold LogSink.rotate
    rw [limitBytes_small hl]
    split
    · cases hx : s.file with
      | none =>
        rename_i h
        have : s.size = 0 := by unfold LogSink.size; rw [hx]
        omega
      | some n =>
        obtain ⟨g, h1, h2⟩ := hf n hx
        subst h2
        have := room_append names generations s g h1 (ascText "</log>\n")
        exact ⟨_, rfl, by show _ ≤ room names generations (s.append _ _); omega, fun n h => by cases h⟩
    · exact ⟨s, rfl, Nat.le_refl _, hf⟩
  obtain ⟨s1, e1, h1, h2⟩ := hr
  unfold LogSink.event
  rw [e1, Res.ok_bind]
  have hline : 1 ≤ (ascText "  <event>" ++ text ++ ascText "</event>\n").length := by
    have : (ascText "  <event>").length = 9 := by decide +kernel
    simp only [List.length_append]; omega
  cases hx : s1.file with
  | some n =>
    obtain ⟨g, g1, g2⟩ := h2 n hx
    subst g2
    have := room_append names generations s1 g g1 (ascText "  <event>" ++ text ++ ascText "</event>\n")
    exact ⟨_, rfl, by omega, h2⟩
  | none =>
    rw [if_neg (by decide)]
    have hm : s1.generation % generations < generations := Nat.mod_lt _ hg
    refine ⟨_, rfl, ?_, ?_⟩
    · rw [hn s1.generation]
      refine Nat.le_trans ?_ (room_append names generations _ _ hm _)
      have h3 := room_append names generations (if (s1.disk (names (s1.generation % generations))).isSome = false then
        LogSink.append { s1 with file := some (names (s1.generation % generations)), generation := s1.generation + 1 } (names (s1.generation % generations)) logHeader
        else { s1 with file := some (names (s1.generation % generations)), generation := s1.generation + 1 }) _ hm (ascText "<log>\n")
      refine Nat.le_trans ?_ (Nat.add_le_add_right h3 _)
      have h4 : room names generations s1 ≤ room names generations (if (s1.disk (names (s1.generation % generations))).isSome = false then
        LogSink.append { s1 with file := some (names (s1.generation % generations)), generation := s1.generation + 1 } (names (s1.generation % generations)) logHeader
        else { s1 with file := some (names (s1.generation % generations)), generation := s1.generation + 1 }) := by
        split
        · have := room_append names generations { s1 with file := some (names (s1.generation % generations)), generation := s1.generation + 1 } _ hm logHeader
          exact Nat.le_trans (Nat.le_add_right _ _) this
        · exact Nat.le_refl _
      omega
    · intro n h
      refine ⟨_, hm, ?_⟩
      rw [← hn]
      split at h <;> (cases h; rfl)

/-- **C125 is false** of generations: whatever the limit and the number of generations (2000 and 3 in log.xml), the files of all generations together
grow beyond every bound.  (Files of earlier generations are appended to, not replaced.) -/
theorem C125_bound_violated (names : Nat → List Byte) (generations : Nat) (hg : 0 < generations) (hn : ∀ g, names g = names (g % generations))
    (limit : Nat) (hl : limit < 2 ^ 43) (bound : Nat) : ∃ calls after logged, noFiles.run names limit calls = .ok (after, logged) ∧
      bound ≤ room names generations after := by
  have key : ∀ k (s : LogSink), (∀ n ∈ s.file, ∃ g, g < generations ∧ n = names g) →
      ∃ after logged, s.run names limit (List.replicate k (.event (ascText "x") true)) = .ok (after, logged) ∧ room names generations s + k ≤ room names generations after := by
    intro k
    induction k with
    | zero => intro s _; exact ⟨s, [], rfl, Nat.le_refl _⟩
    | succ k ih =>
      intro s hf
      obtain ⟨s1, e1, r1, f1⟩ := room_event names generations hg hn limit hl s hf (ascText "x")
      obtain ⟨s2, ts, e2, r2⟩ := ih s1 f1
      refine ⟨s2, _, by rw [List.replicate_succ, LogSink.run, e1, Res.ok_bind]; simp only []; rw [e2]; rfl, by omega⟩
  obtain ⟨after, logged, e, h⟩ := key bound noFiles (fun n h => by cases h)
  exact ⟨_, after, logged, e, by omega⟩

/-- The premises hold of the names "Magick-%g.log" and three generations. -/
example : ∀ g, (fun g => ascText "Magick-" ++ [asc '0' + BitVec.ofNat 8 (g % 3)] ++ ascText ".log") g =
    (fun g => ascText "Magick-" ++ [asc '0' + BitVec.ofNat 8 (g % 3)] ++ ascText ".log") (g % 3) := by
  intro g; simp

theorem rotate_not {limit : Nat} (hl : limit < 2 ^ 43) {s : LogSink} {n d : List Byte} (h1 : s.file = some n) (h2 : s.disk n = some d)
    (h3 : d.length ≤ 1024 * 1024 * limit) : s.rotate limit = .ok s := by
  unfold LogSink.rotate
  have : s.size = d.length := by unfold LogSink.size; rw [h1]; simp only []; rw [h2]; rfl
  rw [limitBytes_small hl, if_neg (by omega)]

/-- **C125 is false** of which events there were: texts are not escaped, so that one event can pass for two (forged entries). -/
theorem C125_forged_violated (a b : List Byte) (limit : Nat) (hl : limit < 2 ^ 43)
    (hs : (logHeader ++ ascText "<log>\n" ++ line a).length ≤ 1024 * 1024 * limit) : ∃ after₁ after₂,
    noFiles.run (fun _ => ascText "log") limit [.event (a ++ ascText "</event>\n  <event>" ++ b) true] = .ok (after₁, [a ++ ascText "</event>\n  <event>" ++ b]) ∧
    noFiles.run (fun _ => ascText "log") limit [.event a true, .event b true] = .ok (after₂, [a, b]) ∧
    after₁.disk = after₂.disk := by
  have first : ∀ t : List Byte, ∃ s, noFiles.event (fun _ => ascText "log") limit t true = .ok (s, true) ∧ s.file = some (ascText "log") ∧
      s.disk = fun n => if n = ascText "log" then some (logHeader ++ ascText "<log>\n" ++ line t) else none := by
    intro t
    unfold LogSink.event
    have : noFiles.rotate limit = .ok noFiles := by
      unfold LogSink.rotate
      rw [limitBytes_small hl, if_neg]
      show ¬ ((0 : Nat) : Int) > _
      omega
    rw [this, Res.ok_bind]
    refine ⟨_, rfl, rfl, ?_⟩
    funext n
    simp only [LogSink.append, noFiles]
    by_cases h : n = ascText "log"
    · subst h; simp [line]
    · simp [h]
  have second : ∀ s : LogSink, s.file = some (ascText "log") →
      (s.disk = fun n => if n = ascText "log" then some (logHeader ++ ascText "<log>\n" ++ line a) else none) →
      ∃ s', s.event (fun _ => ascText "log") limit b true = .ok (s', true) ∧
      s'.disk = fun n => if n = ascText "log" then some (logHeader ++ ascText "<log>\n" ++ line a ++ line b) else none := by
    intro s h1 h2
    unfold LogSink.event
    rw [rotate_not hl h1 (by rw [h2]; exact if_pos rfl) hs, Res.ok_bind, h1]
    refine ⟨_, rfl, ?_⟩
    funext n
    simp only [LogSink.append, h2]
    by_cases h : n = ascText "log"
    · subst h; simp [line]
    · simp [h]
  obtain ⟨s1, e1, _, d1⟩ := first (a ++ ascText "</event>\n  <event>" ++ b)
  obtain ⟨s2, e2, f2, d2⟩ := first a
  obtain ⟨s, e, hd⟩ := second s2 f2 d2
  refine ⟨s1, s, by rw [LogSink.run, e1, Res.ok_bind]; rfl, by rw [LogSink.run, e2, Res.ok_bind]; simp only []; rw [LogSink.run, e, Res.ok_bind]; rfl, ?_⟩
  rw [d1]
  rw [hd]
  funext n
  have hm : ascText "</event>\n  <event>" = ascText "</event>\n" ++ ascText "  <event>" := by decide +kernel
  simp only [line, hm, List.append_assoc]

example : (logHeader ++ ascText "<log>\n" ++ line (ascText "login failed")).length ≤ 1024 * 1024 * 2000 := by decide +kernel

end Wizard.Props
