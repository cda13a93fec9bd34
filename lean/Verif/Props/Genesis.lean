import Verif.Spec.Genesis
import Verif.Lemmas.Shared
/-! C167: threads that start and end the toolkit. -/
namespace Wizard.Props
open Wizard Wizard.Spec.Genesis

/-- The thread holds the mutex of wizard.c. -/
def InW : LifePc → Bool
  | .idle | .testW _ | .initW _ | .markW _ | .lockW _ | .testDown | .destroyDown | .markDown => false
  | _ => true

/-- The thread holds the mutex of semaphore.c. -/
def InS : LifePc → Bool
  | .work _ | .unlockS _ => true
  | _ => false

/-- The call a thread has begun and not finished. -/
def pendingOf : LifePc → List LifeCall
  | .idle | .testDown | .destroyDown | .markDown => []
  | .testW f | .initW f | .markW f | .lockW f | .look f | .leave f _ => [f]
  | .testS .begin | .initS .begin | .markS .begin | .lockS .begin | .work .begin | .unlockS .begin | .start _ | .setOn => [.genesis]
  | _ => [.terminus]

/-- What the shared state is between two calls. -/
def Between (on : Bool) (sem : Component → Option Nat) (cache : Bool) (order : List (Nat × LifeCall)) : Prop :=
  on = lastOn order ∧ (on = true → (∀ c, sem c ≠ none) ∧ cache = true) ∧
    (on = false → (∀ c, c ≠ .configure → sem c = none) ∧ cache = false ∧ (sem .configure ≠ none ↔ everOn order))

/-- In the middle of `WizardsToolkitGenesis`. -/
def Rising (rest : List Component) (on : Bool) (sem : Component → Option Nat) (cache : Bool) (order : List (Nat × LifeCall)) : Prop :=
  on = false ∧ lastOn order = false ∧ ∃ d, d ++ rest = genesisOrder ∧ (∀ c, sem c ≠ none ↔ (c ∈ d ∨ (c = .configure ∧ everOn order))) ∧ (cache = true ↔ .log ∈ d)

/-- In the middle of `WizardsToolkitTerminus`; `cut`: the log list is gone already. -/
def Falling (rest : List Component) (cut : Bool) (on : Bool) (sem : Component → Option Nat) (cache : Bool) (order : List (Nat × LifeCall)) : Prop :=
  on = true ∧ everOn order ∧ ∃ d, d ++ rest = terminusOrder ∧ (∀ c, sem c ≠ none ↔ c ∉ d) ∧
    (cache = true ↔ (.log ∉ d ∧ ¬ (cut = true ∧ rest.head? = some .log)))

/-- What the shared state is when the thread that holds the mutex of wizard.c is here. -/
def ShapeAt (t : Nat) (p : LifePc) (on : Bool) (sem : Component → Option Nat) (cache : Bool) (order : List (Nat × LifeCall)) : Prop :=
  match p with
  | .look _ => Between on sem cache order
  | .testS .begin | .initS .begin | .markS .begin => on = false ∧ Between on sem cache order
  | .start rest => Rising rest on sem cache order
  | .setOn => Rising [] on sem cache order
  | .leave f _ => Between on sem cache (order ++ [(t, f)])
  | .finish rest => Falling rest false on sem cache order
  | .clear c rest => Falling (c :: rest) false on sem cache order
  | .testS (.relinquish c rest) | .initS (.relinquish c rest) | .markS (.relinquish c rest) | .lockS (.relinquish c rest)
  | .work (.relinquish c rest) => Falling (c :: rest) true on sem cache order
  | .unlockS (.relinquish _ rest) => Falling rest false on sem cache order
  | .setOff => Falling [] false on sem cache order
  | _ => False

/-- What every schedule keeps up, but for the initialisation of the mutexes. -/
structure LifeInv (prog : Nat → List LifeCall) (w : LifeWorld) : Prop where
  holdW : ∀ t, InW (w.pc t) = true ↔ w.lockW = some t
  holdS : ∀ t, InS (w.pc t) = true ↔ w.lockS = some t
  free : w.lockW = none → Between w.on w.sem w.cache w.order
  held : ∀ t, w.lockW = some t → ShapeAt t (w.pc t) w.on w.sem w.cache w.order
  acc : Accounted w
  calls : ∀ t, callsOf t w.order ++ pendingOf (w.pc t) ++ w.todo t = prog t

theorem acc_acquire {w : LifeWorld} (h : Accounted w) {c : Component} (hc : w.sem c = none) : Accounted (w.acquire c) := by
  obtain ⟨h1, h2, h3, h4⟩ := h
  have hn : w.made ∉ w.gone := fun hm => absurd ((h4 w.made).2 (.inl hm)) (Nat.lt_irrefl _)
  have hs : ∀ d, w.sem d ≠ some w.made := fun d hd => absurd ((h4 w.made).2 (.inr ⟨d, hd⟩)) (Nat.lt_irrefl _)
  refine ⟨h1, ?_, ?_, ?_⟩ <;> simp only [LifeWorld.acquire, LifeWorld.setSem]
  · intro d s hd
    split at hd
    · cases hd; exact hn
    · exact h2 d s hd
  · intro d e s hd he
    split at hd <;> split at he
    · simp_all
    · cases hd; exact absurd he (hs e)
    · cases he; exact absurd hd (hs d)
    · exact h3 d e s hd he
  · intro s
    constructor
    · intro hl
      by_cases e : s = w.made
      · exact .inr ⟨c, by simp [e]⟩
      · rcases (h4 s).1 (by omega) with g | ⟨d, g⟩
        · exact .inl g
        · refine .inr ⟨d, ?_⟩
          have : d ≠ c := by intro e; rw [e, hc] at g; cases g
          simp [this, g]
    · rintro (g | ⟨d, g⟩)
      · have := (h4 s).2 (.inl g); omega
      · split at g
        · cases g; omega
        · have := (h4 s).2 (.inr ⟨d, g⟩); omega

theorem acc_give {w : LifeWorld} (h : Accounted w) {c : Component} {s : Nat} (hc : w.sem c = some s) :
    Accounted { w.setSem c none with gone := s :: w.gone } := by
  obtain ⟨h1, h2, h3, h4⟩ := h
  have hg := h2 c s hc
  refine ⟨List.nodup_cons.2 ⟨hg, h1⟩, ?_, ?_, ?_⟩ <;> simp only [LifeWorld.setSem]
  · intro d x hd
    split at hd
    · cases hd
    · rename_i hne
      intro hx
      rcases List.mem_cons.1 hx with e | hx
      · subst e; exact hne (h3 d c x hd hc)
      · exact h2 d x hd hx
  · intro d e x hd he
    split at hd <;> split at he <;> first | (cases hd; done) | (cases he; done) | exact h3 d e x hd he
  · intro x
    rw [h4 x]
    constructor
    · rintro (g | ⟨d, g⟩)
      · exact .inl (List.mem_cons_of_mem _ g)
      · by_cases e : d = c
        · subst e; rw [hc] at g; cases g; exact .inl (List.mem_cons_self ..)
        · exact .inr ⟨d, by simp [e, g]⟩
    · rintro (g | ⟨d, g⟩)
      · rcases List.mem_cons.1 g with e | g
        · subst e; exact .inr ⟨c, hc⟩
        · exact .inl g
      · split at g
        · cases g
        · exact .inr ⟨d, g⟩

/-- A step of a thread that does not hold the mutex of wizard.c. -/
theorem inv_outside {prog : Nat → List LifeCall} {w : LifeWorld} (h : LifeInv prog w) {t : Nat} {p : LifePc} (w' : LifeWorld)
    (hw : InW (w.pc t) = false) (hp : InW p = false) (hs : InS (w.pc t) = false) (hps : InS p = false)
    (e1 : w'.lockW = w.lockW) (e2 : w'.lockS = w.lockS) (e3 : w'.on = w.on) (e4 : w'.sem = w.sem) (e5 : w'.cache = w.cache)
    (e6 : w'.order = w.order) (e7 : w'.made = w.made) (e8 : w'.gone = w.gone) (epc : w'.pc = putAt w.pc t p)
    (ecalls : ∀ u, pendingOf (w'.pc u) ++ w'.todo u = pendingOf (w.pc u) ++ w.todo u) : LifeInv prog w' := by
  obtain ⟨h1, h2, h3, h4, h5, h6⟩ := h
  refine ⟨?_, ?_, ?_, ?_, ?_, ?_⟩
  · intro u
    rw [e1, epc, ← h1 u]
    by_cases e : u = t
    · subst e; rw [putAt_same, hp, hw]
    · rw [putAt_ne _ _ e]
  · intro u
    rw [e2, epc, ← h2 u]
    by_cases e : u = t
    · subst e; rw [putAt_same, hps, hs]
    · rw [putAt_ne _ _ e]
  · rw [e1, e3, e4, e5, e6]; exact h3
  · intro u hu
    rw [e1] at hu
    have hne : u ≠ t := by
      intro e; subst e
      have := (h1 u).2 hu
      rw [hw] at this; cases this
    rw [epc, putAt_ne _ _ hne, e3, e4, e5, e6]
    exact h4 u hu
  · obtain ⟨a1, a2, a3, a4⟩ := h5
    exact ⟨by rw [e8]; exact a1, by rw [e4, e8]; exact a2, by rw [e4]; exact a3, by rw [e4, e7, e8]; exact a4⟩
  · intro u
    rw [List.append_assoc, ecalls u, e6, ← List.append_assoc]
    exact h6 u

/-- A step of the thread that holds it, which keeps it. -/
theorem inv_inside {prog : Nat → List LifeCall} {w : LifeWorld} (h : LifeInv prog w) {t : Nat} {p : LifePc} (w' : LifeWorld)
    (hw : w.lockW = some t) (hp : InW p = true) (e1 : w'.lockW = some t) (hs : ∀ u, InS (putAt w.pc t p u) = true ↔ w'.lockS = some u)
    (hsh : ShapeAt t p w'.on w'.sem w'.cache w'.order) (ha : Accounted w') (e6 : w'.order = w.order) (epc : w'.pc = putAt w.pc t p)
    (et : w'.todo = w.todo) (hpend : pendingOf p = pendingOf (w.pc t)) : LifeInv prog w' := by
  obtain ⟨h1, h2, h3, h4, h5, h6⟩ := h
  refine ⟨?_, ?_, ?_, ?_, ha, ?_⟩
  · intro u
    rw [e1, epc]
    by_cases e : u = t
    · subst e; rw [putAt_same, hp]; simp
    · rw [putAt_ne _ _ e, h1 u, hw]
  · rw [epc]; exact hs
  · rw [e1]; intro h; cases h
  · intro u hu
    rw [e1] at hu
    cases hu
    rw [epc, putAt_same]
    exact hsh
  · intro u
    rw [e6, et, epc]
    by_cases e : u = t
    · subst e; rw [putAt_same, hpend]; exact h6 u
    · rw [putAt_ne _ _ e]; exact h6 u

/-- The mutexes are as the next step of the thread needs them. -/
structure SafeAt (w : LifeWorld) (t : Nat) : Prop where
  initW : ∀ f, w.pc t = .initW f → w.liveW = false ∧ w.lockW = none
  lockW : ∀ f, w.pc t = .lockW f → w.liveW = true
  initS : ∀ u, w.pc t = .initS u → w.liveS = false ∧ w.lockS = none
  lockS : ∀ u, w.pc t = .lockS u → w.liveS = true
  down : w.pc t = .destroyDown → w.liveS = true ∧ w.lockS = none

theorem genesis_split {d rest : List Component} {c : Component} (h : d ++ c :: rest = genesisOrder) : c ∉ d := by
  have : (d ++ c :: rest).Nodup := by rw [h]; decide
  intro hm
  exact (List.nodup_append.1 this).2.2 c hm c (List.mem_cons_self ..) rfl

theorem terminus_split {d rest : List Component} {c : Component} (h : d ++ c :: rest = terminusOrder) : c ∉ d ∧ c ≠ .configure := by
  have : (d ++ c :: rest).Nodup := by rw [h]; decide
  refine ⟨fun hm => (List.nodup_append.1 this).2.2 c hm c (List.mem_cons_self ..) rfl, fun e => ?_⟩
  subst e
  have : Component.configure ∈ terminusOrder := by rw [← h]; simp
  revert this; decide

theorem acc_same {w w' : LifeWorld} (h : Accounted w) (e1 : w'.sem = w.sem) (e2 : w'.made = w.made) (e3 : w'.gone = w.gone) : Accounted w' := by
  obtain ⟨a1, a2, a3, a4⟩ := h
  exact ⟨by rw [e3]; exact a1, by rw [e1, e3]; exact a2, by rw [e1]; exact a3, by rw [e1, e2, e3]; exact a4⟩

theorem lastOn_snoc (o : List (Nat × LifeCall)) (t : Nat) (f : LifeCall) : lastOn (o ++ [(t, f)]) = decide (f = .genesis) := by
  simp [lastOn]

theorem everOn_snoc (o : List (Nat × LifeCall)) (t : Nat) (f : LifeCall) : everOn (o ++ [(t, f)]) ↔ everOn o ∨ f = .genesis := by
  simp only [everOn, List.map_append, List.map_cons, List.map_nil, List.mem_append, List.mem_singleton]
  exact or_congr Iff.rfl eq_comm

theorem everOn_of_last {o : List (Nat × LifeCall)} (h : lastOn o = true) : everOn o := by
  rcases List.eq_nil_or_concat o with e | ⟨l, ⟨t, f⟩, e⟩
  · subst e; simp [lastOn] at h
  · subst e
    rw [List.concat_eq_append] at *
    rw [lastOn_snoc] at h
    exact (everOn_snoc _ _ _).2 (.inr (by simpa using h))

theorem sameS {w : LifeWorld} {t : Nat} {p : LifePc} (h : ∀ u, InS (w.pc u) = true ↔ w.lockS = some u) (hs : InS (w.pc t) = false) (hp : InS p = false) :
    ∀ u, InS (putAt w.pc t p u) = true ↔ w.lockS = some u := by
  intro u
  by_cases e : u = t
  · subst e; rw [putAt_same, hp, ← h u, hs]
  · rw [putAt_ne _ _ e]; exact h u

theorem rising_next {c : Component} {rest : List Component} {w : LifeWorld} (h : Rising (c :: rest) w.on w.sem w.cache w.order) :
    let w' := (if w.sem c = none then w.acquire c else w).load c
    Rising rest w'.on w'.sem w'.cache w'.order ∧ w'.lockW = w.lockW ∧ w'.lockS = w.lockS ∧ w'.order = w.order ∧ w'.pc = w.pc ∧ w'.todo = w.todo := by
  obtain ⟨h1, hlast, d, h2, h3, h4⟩ := h
  have hx : ∀ w' : LifeWorld, (w' = if w.sem c = none then w.acquire c else w) →
      w'.on = w.on ∧ w'.order = w.order ∧ w'.cache = w.cache ∧ (∀ x, w'.sem x ≠ none ↔ x = c ∨ w.sem x ≠ none) ∧ w'.lockW = w.lockW ∧ w'.lockS = w.lockS ∧
        w'.pc = w.pc ∧ w'.todo = w.todo := by
    intro w' e
    split at e
    · subst e
      refine ⟨rfl, rfl, rfl, ?_, rfl, rfl, rfl, rfl⟩
      intro x
      simp only [LifeWorld.acquire, LifeWorld.setSem]
      by_cases hx : x = c <;> simp [hx]
    · subst e
      refine ⟨rfl, rfl, rfl, ?_, rfl, rfl, rfl, rfl⟩
      intro x
      constructor
      · exact .inr
      · rintro (e | e)
        · subst e; assumption
        · exact e
  obtain ⟨a1, a2, a3, a4, a5, a6, a7, a8⟩ := hx _ rfl
  simp only [LifeWorld.load]
  split
  · rename_i hl
    refine ⟨⟨by rw [← h1]; exact a1, by rw [← hlast, ← a2], d ++ [c], by simpa using h2, ?_, ?_⟩, a5, a6, a2, a7, a8⟩
    · intro x
      rw [a4 x, h3 x, a2, List.mem_append, List.mem_singleton]
      grind
    · simp [hl]
  · rename_i hl
    refine ⟨⟨by rw [← h1]; exact a1, by rw [← hlast, ← a2], d ++ [c], by simpa using h2, ?_, ?_⟩, a5, a6, a2, a7, a8⟩
    · intro x
      rw [a4 x, h3 x, a2, List.mem_append, List.mem_singleton]
      grind
    · rw [a3, h4, List.mem_append, List.mem_singleton]
      grind

theorem rising_done {t : Nat} {w : LifeWorld} (h : Rising [] w.on w.sem w.cache w.order) : Between true w.sem w.cache (w.order ++ [(t, .genesis)]) := by
  obtain ⟨_, _, d, h2, h3, h4⟩ := h
  rw [List.append_nil] at h2
  subst h2
  refine ⟨by rw [lastOn_snoc]; rfl, fun _ => ⟨fun c => (h3 c).2 (.inl ?_), h4.2 (by decide)⟩, fun h => by cases h⟩
  cases c <;> decide

theorem rising_start {w : LifeWorld} (hf : w.on = false) (h : Between w.on w.sem w.cache w.order) : Rising genesisOrder w.on w.sem w.cache w.order := by
  obtain ⟨h0, _, h3⟩ := h
  obtain ⟨a, b, c⟩ := h3 hf
  refine ⟨hf, h0 ▸ hf, [], rfl, ?_, by simp [b]⟩
  intro x
  by_cases e : x = .configure
  · subst e; rw [c]; simp
  · simp [e, a x e]

theorem falling_start {w : LifeWorld} (hf : w.on = true) (h : Between w.on w.sem w.cache w.order) : Falling terminusOrder false w.on w.sem w.cache w.order := by
  obtain ⟨h1, h2, _⟩ := h
  obtain ⟨a, b⟩ := h2 hf
  refine ⟨hf, everOn_of_last (h1 ▸ hf), [], rfl, ?_, by simp [b]⟩
  intro x
  simp [a x]

theorem falling_done {t : Nat} {w : LifeWorld} (h : Falling [] false w.on w.sem w.cache w.order) : Between false w.sem w.cache (w.order ++ [(t, .terminus)]) := by
  obtain ⟨_, h1, d, h2, h3, h4⟩ := h
  rw [List.append_nil] at h2
  subst h2
  refine ⟨(by rw [lastOn_snoc]; rfl), fun h => (by cases h), fun _ => ⟨fun c hc => ?_, ?_, ?_⟩⟩
  · by_cases e : w.sem c = none
    · exact e
    · refine absurd ?_ ((h3 c).1 e)
      cases c <;> first | decide | exact absurd rfl hc
  · rw [← Bool.not_eq_true, h4]; simp [terminusOrder]
  · rw [everOn_snoc, h3]
    simp [h1, terminusOrder]

theorem falling_clear {c : Component} {rest : List Component} {w : LifeWorld} (h : Falling (c :: rest) false w.on w.sem w.cache w.order) :
    Falling (c :: rest) true (w.unload c).on (w.unload c).sem (w.unload c).cache (w.unload c).order := by
  obtain ⟨h0, h1, d, h2, h3, h4⟩ := h
  unfold LifeWorld.unload
  split
  · rename_i e
    exact ⟨h0, h1, d, h2, h3, by simp [e]⟩
  · rename_i e
    exact ⟨h0, h1, d, h2, h3, by rw [h4]; simp [e]⟩

theorem falling_give {c : Component} {rest : List Component} {w : LifeWorld} (h : Falling (c :: rest) true w.on w.sem w.cache w.order) :
    Falling rest false (w.setSem c none).on (w.setSem c none).sem (w.setSem c none).cache (w.setSem c none).order := by
  obtain ⟨h0, h1, d, h2, h3, h4⟩ := h
  refine ⟨h0, h1, d ++ [c], by simpa using h2, ?_, ?_⟩
  · intro x
    simp only [LifeWorld.setSem, List.mem_append, List.mem_singleton]
    by_cases e : x = c
    · simp [e]
    · simp [e, h3 x]
  · show w.cache = true ↔ _
    rw [h4]
    simp only [List.mem_append, List.mem_singleton, List.head?_cons]
    grind

theorem life_step {openmp : Bool} {prog : Nat → List LifeCall} {w : LifeWorld} (h : LifeInv prog w) (t : Nat) (hs : SafeAt w t) :
    ∃ w', toolkitStep openmp w t = .ok w' ∧ LifeInv prog w' := by
  have hin : InW (w.pc t) = true → w.lockW = some t := (h.holdW t).1
  unfold toolkitStep
  cases hp : w.pc t with
  | idle =>
    simp only []
    cases ht : w.todo t with
    | nil => exact ⟨_, rfl, h⟩
    | cons f fs =>
      refine ⟨_, rfl, inv_outside h (t := t) (p := .testW f) _ (by rw [hp]; rfl) rfl (by rw [hp]; rfl) rfl rfl rfl rfl rfl rfl rfl rfl rfl rfl ?_⟩
      intro u
      by_cases e : u = t
      · subst e; simp [LifeWorld.goto, putAt_same, hp, ht, pendingOf]
      · simp [LifeWorld.goto, putAt_ne _ _ e]
  | testW f =>
    refine ⟨_, rfl, inv_outside h (t := t) _ (by rw [hp]; rfl) ?_ (by rw [hp]; rfl) ?_ rfl rfl rfl rfl rfl rfl rfl rfl rfl ?_⟩
    · split <;> rfl
    · split <;> rfl
    · intro u
      by_cases e : u = t
      · subst e; simp only [LifeWorld.goto, putAt_same, hp]; split <;> rfl
      · simp [LifeWorld.goto, putAt_ne _ _ e]
  | initW f =>
    obtain ⟨a, b⟩ := hs.initW f hp
    simp only [a, Bool.false_eq_true, if_false]
    refine ⟨_, rfl, inv_outside h (t := t) _ (by rw [hp]; rfl) ?_ (by rw [hp]; rfl) ?_ b.symm rfl rfl rfl rfl rfl rfl rfl rfl ?_⟩
    · rfl
    · rfl
    · intro u
      by_cases e : u = t
      · subst e; simp [LifeWorld.goto, putAt_same, hp, pendingOf]
      · simp [LifeWorld.goto, putAt_ne _ _ e]
  | markW f =>
    refine ⟨_, rfl, inv_outside h (t := t) _ (by rw [hp]; rfl) ?_ (by rw [hp]; rfl) ?_ rfl rfl rfl rfl rfl rfl rfl rfl rfl ?_⟩
    · rfl
    · rfl
    · intro u
      by_cases e : u = t
      · subst e; simp [LifeWorld.goto, putAt_same, hp, pendingOf]
      · simp [LifeWorld.goto, putAt_ne _ _ e]
  | lockW f =>
    simp only [hs.lockW f hp, Bool.true_eq_false, if_false]
    cases hl : w.lockW with
    | some u => exact ⟨_, rfl, h⟩
    | none =>
      refine ⟨_, rfl, ?_⟩
      obtain ⟨h1, h2, h3, h4, h5, h6⟩ := h
      refine ⟨?_, ?_, ?_, ?_, acc_same h5 rfl rfl rfl, ?_⟩
      · intro u
        simp only [LifeWorld.goto]
        by_cases e : u = t
        · subst e; rw [putAt_same]; simp [InW]
        · rw [putAt_ne _ _ e, h1 u, hl]; simp [Ne.symm e]
      · exact sameS h2 (by rw [hp]; rfl) rfl
      · intro e; cases e
      · intro u hu
        cases hu
        simp only [LifeWorld.goto, putAt_same]
        exact h3 hl
      · intro u
        simp only [LifeWorld.goto]
        by_cases e : u = t
        · subst e; rw [putAt_same]; have := h6 u; rw [hp] at this; exact this
        · rw [putAt_ne _ _ e]; exact h6 u
  | look f =>
    have hw := hin (by rw [hp]; rfl)
    have hsh : Between w.on w.sem w.cache w.order := by have := h.held t hw; rw [hp] at this; exact this
    cases f with
    | genesis =>
      simp only []
      refine ⟨_, rfl, inv_inside h (t := t) _ hw ?_ hw (sameS h.holdS (by rw [hp]; rfl) ?_) ?_ (acc_same h.acc rfl rfl rfl) rfl rfl rfl ?_⟩
      · split <;> rfl
      · split <;> rfl
      · simp only [LifeWorld.goto]
        split
        · rename_i ho
          obtain ⟨a1, a2, a3⟩ := hsh
          exact ⟨by rw [lastOn_snoc, ho]; rfl, a2, fun hf => by rw [ho] at hf; cases hf⟩
        · rename_i ho
          exact ⟨by simpa using ho, hsh⟩
      · rw [hp]; split <;> rfl
    | terminus =>
      simp only []
      refine ⟨_, rfl, inv_inside h (t := t) _ hw ?_ hw (sameS h.holdS (by rw [hp]; rfl) ?_) ?_ (acc_same h.acc rfl rfl rfl) rfl rfl rfl ?_⟩
      · split <;> rfl
      · split <;> rfl
      · simp only [LifeWorld.goto]
        split
        · rename_i ho
          obtain ⟨a1, a2, a3⟩ := hsh
          exact ⟨by rw [lastOn_snoc, ho]; rfl, a2, fun hf => by
            obtain ⟨b1, b2, b3⟩ := a3 hf
            exact ⟨b1, b2, by rw [everOn_snoc, b3]; simp⟩⟩
        · rename_i ho
          exact falling_start (by simpa using ho) hsh
      · rw [hp]; split <;> rfl
  | testS u =>
    have hw := hin (by rw [hp]; rfl)
    have hsh := h.held t hw
    rw [hp] at hsh
    refine ⟨_, rfl, inv_inside h (t := t) _ hw ?_ hw (sameS h.holdS (by rw [hp]; rfl) ?_) ?_ (acc_same h.acc rfl rfl rfl) rfl rfl rfl ?_⟩
    · split <;> rfl
    · split <;> rfl
    · simp only [LifeWorld.goto]
      cases u <;> split <;> exact hsh
    · rw [hp]; cases u <;> split <;> rfl
  | initS u =>
    have hw := hin (by rw [hp]; rfl)
    have hsh := h.held t hw
    rw [hp] at hsh
    obtain ⟨a, b⟩ := hs.initS u hp
    simp only [a, Bool.false_eq_true, if_false]
    refine ⟨_, rfl, inv_inside h (t := t) (p := .markS u) _ hw rfl hw ?_ ?_ (acc_same h.acc rfl rfl rfl) rfl rfl rfl ?_⟩
    · have := sameS (t := t) (p := .markS u) h.holdS (by rw [hp]; rfl) rfl
      rw [b] at this; exact this
    · simp only [LifeWorld.goto]
      cases u <;> exact hsh
    · rw [hp]; cases u <;> rfl
  | markS u =>
    have hw := hin (by rw [hp]; rfl)
    have hsh := h.held t hw
    rw [hp] at hsh
    refine ⟨_, rfl, inv_inside h (t := t) _ hw ?_ hw (sameS h.holdS (by rw [hp]; rfl) ?_) ?_ (acc_same h.acc rfl rfl rfl) rfl rfl rfl ?_⟩
    · cases u <;> rfl
    · cases u <;> rfl
    · simp only [LifeWorld.goto]
      cases u with
      | begin => exact rising_start hsh.1 hsh.2
      | activate c rest => exact hsh
      | relinquish c rest => exact hsh
    · rw [hp]; cases u <;> rfl
  | lockS u =>
    have hw := hin (by rw [hp]; rfl)
    have hsh := h.held t hw
    rw [hp] at hsh
    simp only [hs.lockS u hp, Bool.true_eq_false, if_false]
    cases hl : w.lockS with
    | some u => exact ⟨_, rfl, h⟩
    | none =>
      refine ⟨_, rfl, inv_inside h (t := t) (p := .work u) _ hw rfl hw ?_ ?_ (acc_same h.acc rfl rfl rfl) rfl rfl rfl ?_⟩
      · intro v
        by_cases e : v = t
        · subst e; rw [putAt_same]; simp [InS, LifeWorld.goto]
        · rw [putAt_ne _ _ e, h.holdS v, hl]; simp [LifeWorld.goto, Ne.symm e]
      · simp only [LifeWorld.goto]
        cases u <;> first | exact hsh | exact hsh.elim
      · rw [hp]; cases u <;> rfl
  | work u =>
    have hw := hin (by rw [hp]; rfl)
    have hsh := h.held t hw
    rw [hp] at hsh
    cases u with
    | begin => exact hsh.elim
    | activate c rest => exact hsh.elim
    | relinquish c rest =>
      simp only []
      have hsome : w.sem c ≠ none := by
        obtain ⟨_, _, d, b, e, _⟩ := hsh
        exact (e c).2 (terminus_split b).1
      cases hc : w.sem c with
      | none => exact absurd hc hsome
      | some s =>
        simp only [if_neg (h.acc.live c s hc)]
        refine ⟨_, rfl, inv_inside h (t := t) (p := .unlockS (.relinquish c rest)) _ hw rfl hw ?_ (falling_give hsh) (acc_same (acc_give h.acc hc) rfl rfl rfl) rfl rfl rfl ?_⟩
        · intro v
          by_cases e : v = t
          · subst e
            have := (h.holdS v).1 (by rw [hp]; rfl)
            rw [putAt_same]; simp [InS, LifeWorld.goto, LifeWorld.setSem, this]
          · rw [putAt_ne _ _ e]; exact h.holdS v
        · rw [hp]; rfl
  | unlockS u =>
    have hw := hin (by rw [hp]; rfl)
    have hsh := h.held t hw
    rw [hp] at hsh
    cases u with
    | begin => exact hsh.elim
    | activate c rest => exact hsh.elim
    | relinquish c rest =>
      refine ⟨_, rfl, inv_inside h (t := t) (p := .finish rest) _ hw rfl hw ?_ hsh (acc_same h.acc rfl rfl rfl) rfl rfl rfl ?_⟩
      · intro v
        have hl := (h.holdS t).1 (by rw [hp]; rfl)
        by_cases e : v = t
        · subst e; rw [putAt_same]; simp [InS, LifeWorld.goto]
        · rw [putAt_ne _ _ e, h.holdS v, hl]; simp [LifeWorld.goto, Ne.symm e]
      · rw [hp]; rfl
  | start rest =>
    have hw := hin (by rw [hp]; rfl)
    have hsh := h.held t hw
    rw [hp] at hsh
    cases rest with
    | nil =>
      exact ⟨_, rfl, inv_inside h (t := t) (p := .setOn) _ hw rfl hw (sameS h.holdS (by rw [hp]; rfl) rfl) hsh (acc_same h.acc rfl rfl rfl) rfl rfl rfl (by rw [hp]; rfl)⟩
    | cons c rest =>
      simp only []
      obtain ⟨r1, r2, r3, r4, r5, r6⟩ := rising_next hsh
      refine ⟨_, rfl, inv_inside h (t := t) (p := .start rest) _ hw rfl (r2.trans hw) ?_ r1 ?_ r4 (by simp only [LifeWorld.goto]; rw [r5]) r6 (by rw [hp]; rfl)⟩
      · have := sameS (t := t) (p := .start rest) h.holdS (by rw [hp]; rfl) rfl
        simp only [LifeWorld.goto]
        rw [r3]
        exact this
      · have hb : Accounted (if w.sem c = none then w.acquire c else w) := by
          split
          · exact acc_acquire h.acc (by assumption)
          · exact h.acc
        refine acc_same hb ?_ ?_ ?_ <;> simp only [LifeWorld.goto, LifeWorld.load] <;> (by_cases hl : c = Component.log) <;> simp [hl]
  | setOn =>
    have hw := hin (by rw [hp]; rfl)
    have hsh := h.held t hw
    rw [hp] at hsh
    exact ⟨_, rfl, inv_inside h (t := t) (p := .leave .genesis false) _ hw rfl hw (sameS h.holdS (by rw [hp]; rfl) rfl) (rising_done (w := w) hsh) (acc_same h.acc rfl rfl rfl) rfl rfl rfl (by rw [hp]; rfl)⟩
  | finish rest =>
    have hw := hin (by rw [hp]; rfl)
    have hsh := h.held t hw
    rw [hp] at hsh
    cases rest with
    | nil =>
      exact ⟨_, rfl, inv_inside h (t := t) (p := .setOff) _ hw rfl hw (sameS h.holdS (by rw [hp]; rfl) rfl) hsh (acc_same h.acc rfl rfl rfl) rfl rfl rfl (by rw [hp]; rfl)⟩
    | cons c rest =>
      have hsome : w.sem c ≠ none := by
        obtain ⟨_, _, d, b, e, _⟩ := hsh
        exact (e c).2 (terminus_split b).1
      simp only [if_neg hsome]
      exact ⟨_, rfl, inv_inside h (t := t) (p := .clear c rest) _ hw rfl hw (sameS h.holdS (by rw [hp]; rfl) rfl) hsh (acc_same h.acc rfl rfl rfl) rfl rfl rfl (by rw [hp]; rfl)⟩
  | clear c rest =>
    have hw := hin (by rw [hp]; rfl)
    have hsh := h.held t hw
    rw [hp] at hsh
    have hsome : w.sem c ≠ none := by
      obtain ⟨_, _, d, b, e, _⟩ := hsh
      exact (e c).2 (terminus_split b).1
    simp only []
    cases hc : w.sem c with
    | none => exact absurd hc hsome
    | some s =>
      simp only [if_neg (h.acc.live c s hc)]
      have hu : (w.unload c).lockW = w.lockW ∧ (w.unload c).lockS = w.lockS ∧ (w.unload c).sem = w.sem ∧ (w.unload c).made = w.made ∧
          (w.unload c).gone = w.gone ∧ (w.unload c).order = w.order ∧ (w.unload c).pc = w.pc ∧ (w.unload c).todo = w.todo := by
        unfold LifeWorld.unload; split <;> exact ⟨rfl, rfl, rfl, rfl, rfl, rfl, rfl, rfl⟩
      obtain ⟨u1, u2, u3, u4, u5, u6, u7, u8⟩ := hu
      refine ⟨_, rfl, inv_inside h (t := t) (p := .testS (.relinquish c rest)) _ hw rfl (u1.trans hw) ?_ (falling_clear hsh) (acc_same h.acc u3 u4 u5) u6 (by simp only [LifeWorld.goto]; rw [u7]) u8 (by rw [hp]; rfl)⟩
      have := sameS (t := t) (p := .testS (.relinquish c rest)) h.holdS (by rw [hp]; rfl) rfl
      simp only [LifeWorld.goto]
      rw [u2]
      exact this
  | setOff =>
    have hw := hin (by rw [hp]; rfl)
    have hsh := h.held t hw
    rw [hp] at hsh
    exact ⟨_, rfl, inv_inside h (t := t) (p := .leave .terminus true) _ hw rfl hw (sameS h.holdS (by rw [hp]; rfl) rfl) (falling_done (w := w) hsh) (acc_same h.acc rfl rfl rfl) rfl rfl rfl (by rw [hp]; rfl)⟩
  | leave f more =>
    have hw := hin (by rw [hp]; rfl)
    have hsh := h.held t hw
    rw [hp] at hsh
    refine ⟨_, rfl, ?_⟩
    obtain ⟨h1, h2, h3, h4, h5, h6⟩ := h
    have hq : ∀ q : LifePc, q = (if more = true then .testDown else .idle) → InW q = false ∧ InS q = false ∧ pendingOf q = [] := by
      intro q e; split at e <;> subst e <;> exact ⟨rfl, rfl, rfl⟩
    obtain ⟨q1, q2, q3⟩ := hq _ rfl
    refine ⟨?_, ?_, fun _ => hsh, ?_, acc_same h5 rfl rfl rfl, ?_⟩
    · intro u
      simp only [LifeWorld.goto]
      by_cases e : u = t
      · subst e; rw [putAt_same, q1]; simp
      · rw [putAt_ne _ _ e, h1 u, hw]; simp [Ne.symm e]
    · exact sameS h2 (by rw [hp]; rfl) q2
    · intro u hu; cases hu
    · intro u
      simp only [LifeWorld.goto]
      have := h6 u
      by_cases e : u = t
      · subst e
        rw [putAt_same, q3]
        rw [hp] at this
        rw [← this]
        simp [callsOf, List.filter_append, pendingOf]
      · rw [putAt_ne _ _ e, ← this]
        simp [callsOf, List.filter_append, Ne.symm e]
  | testDown =>
    refine ⟨_, rfl, inv_outside h (t := t) _ (by rw [hp]; rfl) ?_ (by rw [hp]; rfl) ?_ rfl rfl rfl rfl rfl rfl rfl rfl rfl ?_⟩
    · split <;> rfl
    · split <;> rfl
    · intro u
      by_cases e : u = t
      · subst e; simp only [LifeWorld.goto, putAt_same, hp]; split <;> rfl
      · simp [LifeWorld.goto, putAt_ne _ _ e]
  | destroyDown =>
    obtain ⟨a, b⟩ := hs.down hp
    simp only []
    rw [if_neg (by rw [a, b]; simp)]
    refine ⟨_, rfl, inv_outside h (t := t) _ (by rw [hp]; rfl) ?_ (by rw [hp]; rfl) ?_ rfl rfl rfl rfl rfl rfl rfl rfl rfl ?_⟩
    · rfl
    · rfl
    · intro u
      by_cases e : u = t
      · subst e; simp [LifeWorld.goto, putAt_same, hp, pendingOf]
      · simp [LifeWorld.goto, putAt_ne _ _ e]
  | markDown =>
    refine ⟨_, rfl, inv_outside h (t := t) _ (by rw [hp]; rfl) ?_ (by rw [hp]; rfl) ?_ rfl rfl rfl rfl rfl rfl rfl rfl rfl ?_⟩
    · rfl
    · rfl
    · intro u
      by_cases e : u = t
      · subst e; simp [LifeWorld.goto, putAt_same, hp, pendingOf]
      · simp [LifeWorld.goto, putAt_ne _ _ e]

/-- With pthreads nothing is initialised or destroyed. -/
structure PlainLocks (w : LifeWorld) : Prop where
  liveW : w.liveW = true
  liveS : w.liveS = true
  at_ : ∀ t, (∀ f, w.pc t ≠ .initW f) ∧ (∀ u, w.pc t ≠ .initS u) ∧ w.pc t ≠ .destroyDown

theorem plain_safe {w : LifeWorld} (h : PlainLocks w) (t : Nat) : SafeAt w t :=
  ⟨fun f e => absurd e ((h.at_ t).1 f), fun _ _ => h.liveW, fun u e => absurd e ((h.at_ t).2.1 u), fun _ _ => h.liveS, fun e => absurd e (h.at_ t).2.2⟩

theorem plain_goto {w w' : LifeWorld} (h : PlainLocks w) {t : Nat} {p : LifePc} (e1 : w'.liveW = w.liveW) (e2 : w'.liveS = w.liveS) (e3 : w'.pc = putAt w.pc t p)
    (hp : (∀ f, p ≠ .initW f) ∧ (∀ u, p ≠ .initS u) ∧ p ≠ .destroyDown) : PlainLocks w' := by
  refine ⟨e1.trans h.liveW, e2.trans h.liveS, fun u => ?_⟩
  rw [e3]
  by_cases e : u = t
  · subst e; rw [putAt_same]; exact hp
  · rw [putAt_ne _ _ e]; exact h.at_ u

theorem plain_step {w w' : LifeWorld} (h : PlainLocks w) {t : Nat} (hw : toolkitStep false w t = .ok w') : PlainLocks w' := by
  unfold toolkitStep at hw
  have good : ∀ {x : LifeWorld} {p : LifePc}, (Res.ok x : Res LifeWorld) = .ok w' → x.liveW = w.liveW → x.liveS = w.liveS → x.pc = putAt w.pc t p →
      (∀ f, p ≠ .initW f) ∧ (∀ u, p ≠ .initS u) ∧ p ≠ .destroyDown → PlainLocks w' := by
    intro x p e a b c d
    cases e
    exact plain_goto h a b c d
  cases hp : w.pc t with
  | idle =>
    simp only [hp] at hw
    split at hw
    · cases hw; exact h
    · exact good hw rfl rfl rfl (by simp)
  | testW f => simp only [hp] at hw; exact good hw rfl rfl rfl (by simp)
  | initW f => exact absurd hp ((h.at_ t).1 f)
  | markW f => simp only [hp] at hw; exact good hw rfl rfl rfl (by simp)
  | lockW f =>
    simp only [hp, h.liveW, Bool.true_eq_false, if_false] at hw
    split at hw
    · cases hw; exact h
    · exact good hw h.liveW.symm rfl rfl (by simp)
  | look f =>
    cases f <;> simp only [hp] at hw <;> exact good hw rfl rfl rfl (by split <;> simp)
  | testS u => simp only [hp] at hw; exact good hw rfl rfl rfl (by simp)
  | initS u => exact absurd hp ((h.at_ t).2.1 u)
  | markS u => simp only [hp] at hw; exact good hw rfl rfl rfl (by cases u <;> simp [MutexUse.next])
  | lockS u =>
    simp only [hp, h.liveS, Bool.true_eq_false, if_false] at hw
    split at hw
    · cases hw; exact h
    · exact good hw rfl h.liveS.symm rfl (by simp)
  | work u =>
    cases u with
    | begin => simp only [hp] at hw; exact good hw rfl rfl rfl (by simp)
    | activate c rest =>
      simp only [hp] at hw
      refine good hw ?_ ?_ (?_ : _ = putAt w.pc t (.unlockS (.activate c rest))) (by simp) <;> simp only [LifeWorld.goto] <;> split <;> rfl
    | relinquish c rest =>
      simp only [hp] at hw
      split at hw
      · cases hw
      · split at hw
        · cases hw
        · exact good hw rfl rfl rfl (by simp)
  | unlockS u => cases u <;> simp only [hp] at hw <;> exact good hw rfl rfl rfl (by simp)
  | start rest =>
    cases rest with
    | nil => simp only [hp] at hw; exact good hw rfl rfl rfl (by simp)
    | cons c rest =>
      simp only [hp] at hw
      refine good hw ?_ ?_ (?_ : _ = putAt w.pc t (.start rest)) (by simp) <;> simp only [LifeWorld.goto, LifeWorld.load] <;>
        split <;> split <;> rfl
  | setOn => simp only [hp] at hw; exact good hw rfl rfl rfl (by simp)
  | finish rest =>
    cases rest <;> simp only [hp] at hw
    · exact good hw rfl rfl rfl (by simp)
    · exact good hw rfl rfl rfl (by split <;> simp)
  | clear c rest =>
    simp only [hp] at hw
    split at hw
    · cases hw
    · split at hw
      · cases hw
      · refine good hw ?_ ?_ (?_ : _ = putAt w.pc t (.testS (.relinquish c rest))) (by simp) <;> simp only [LifeWorld.goto, LifeWorld.unload] <;>
          (by_cases b : c = Component.log) <;> simp [b]
  | setOff => simp only [hp] at hw; exact good hw rfl rfl rfl (by simp)
  | leave f more => simp only [hp] at hw; exact good hw rfl rfl rfl (by split <;> simp)
  | testDown => simp only [hp] at hw; exact good hw rfl rfl rfl (by simp)
  | destroyDown => exact absurd hp (h.at_ t).2.2
  | markDown => simp only [hp] at hw; exact good hw rfl rfl rfl (by simp)

theorem inv_begin (openmp : Bool) (prog : Nat → List LifeCall) : LifeInv prog (.begin openmp prog) := by
  refine ⟨by simp [LifeWorld.begin, InW], by simp [LifeWorld.begin, InS], fun _ => ?_, by simp [LifeWorld.begin], ?_, by simp [LifeWorld.begin, callsOf, pendingOf]⟩
  · refine ⟨rfl, fun h => (by cases h), fun _ => ⟨fun _ _ => rfl, rfl, ?_⟩⟩
    simp [LifeWorld.begin, everOn]
  · refine ⟨List.nodup_nil, ?_, ?_, ?_⟩ <;> simp [LifeWorld.begin]

theorem plain_begin (prog : Nat → List LifeCall) : PlainLocks (.begin false prog) := ⟨rfl, rfl, fun _ => by simp [LifeWorld.begin]⟩

theorem plain_run {prog : Nat → List LifeCall} (sched : List Nat) : ∀ {w : LifeWorld}, LifeInv prog w → PlainLocks w →
    ∃ w', toolkitRun false w sched = .ok w' ∧ LifeInv prog w' ∧ PlainLocks w' := by
  induction sched with
  | nil => intro w h hp; exact ⟨w, rfl, h, hp⟩
  | cons t ts ih =>
    intro w h hp
    obtain ⟨w1, e1, h1⟩ := life_step (openmp := false) h t (plain_safe hp t)
    obtain ⟨w2, e2, h2⟩ := ih h1 (plain_step hp e1)
    exact ⟨w2, by rw [toolkitRun, e1, Res.ok_bind, e2], h2⟩

theorem settled_of {prog : Nat → List LifeCall} {w : LifeWorld} (h : LifeInv prog w) (hq : Quiet w) : Settled w := by
  have hl : w.lockW = none := by
    cases hw : w.lockW with
    | none => rfl
    | some t => have := (h.holdW t).2 hw; rw [hq t] at this; cases this
  obtain ⟨a, b, c⟩ := h.free hl
  exact ⟨a, b, fun hf => ⟨(c hf).1, (c hf).2.1⟩⟩

/-- With OpenMP and one thread: the flags say which mutexes are initialised, but for the middle of a change. -/
structure Lone (w : LifeWorld) (t : Nat) : Prop where
  others : ∀ u, u ≠ t → w.pc u = .idle ∧ w.todo u = []
  w1 : w.activeW = true → w.liveW = true
  w2 : w.activeW = false → w.liveW = true → ∃ f, w.pc t = .markW f
  w3 : ∀ f, w.pc t = .initW f → w.liveW = false
  w4 : ∀ f, w.pc t = .markW f → w.liveW = true
  w5 : ∀ f, w.pc t = .lockW f → w.liveW = true
  s1 : w.activeS = true → w.liveS = true ∨ w.pc t = .markDown
  s2 : w.activeS = false → w.liveS = true → ∃ u, w.pc t = .markS u
  s3 : ∀ u, w.pc t = .initS u → w.liveS = false
  s4 : ∀ u, w.pc t = .markS u → w.liveS = true
  s5 : ∀ u, w.pc t = .lockS u → w.liveS = true
  s6 : w.pc t = .destroyDown → w.liveS = true
  s7 : w.pc t = .markDown → w.liveS = false

theorem lone_safe {prog : Nat → List LifeCall} {w : LifeWorld} {t : Nat} (hi : LifeInv prog w) (h : Lone w t) : SafeAt w t := by
  refine ⟨fun f e => ⟨h.w3 f e, ?_⟩, h.w5, fun u e => ⟨h.s3 u e, ?_⟩, h.s5, fun e => ⟨h.s6 e, ?_⟩⟩
  · cases hw : w.lockW with
    | none => rfl
    | some u =>
      have := (hi.holdW u).2 hw
      by_cases hu : u = t
      · rw [hu, e] at this; cases this
      · rw [(h.others u hu).1] at this; cases this
  · cases hw : w.lockS with
    | none => rfl
    | some v =>
      have := (hi.holdS v).2 hw
      by_cases hu : v = t
      · rw [hu, e] at this; cases this
      · rw [(h.others v hu).1] at this; cases this
  · cases hw : w.lockS with
    | none => rfl
    | some v =>
      have := (hi.holdS v).2 hw
      by_cases hu : v = t
      · rw [hu, e] at this; cases this
      · rw [(h.others v hu).1] at this; cases this

/-- A step that leaves the flags alone and does not go where they matter. -/
theorem lone_goto {w w' : LifeWorld} {t : Nat} (h : Lone w t) {p : LifePc} (e1 : w'.liveW = w.liveW) (e2 : w'.liveS = w.liveS) (e3 : w'.activeW = w.activeW)
    (e4 : w'.activeS = w.activeS) (e5 : w'.pc = putAt w.pc t p) (e6 : ∀ u, u ≠ t → w'.todo u = w.todo u)
    (a1 : ∀ f, p ≠ .initW f ∧ p ≠ .markW f ∧ p ≠ .lockW f) (a2 : ∀ u, p ≠ .initS u ∧ p ≠ .markS u ∧ p ≠ .lockS u) (a3 : p ≠ .destroyDown ∧ p ≠ .markDown)
    (b1 : ∀ f, w.pc t ≠ .markW f) (b2 : ∀ u, w.pc t ≠ .markS u) (b3 : w.pc t ≠ .markDown) : Lone w' t := by
  obtain ⟨h0, h1, h2, h3, h4, h5, g1, g2, g3, g4, g5, g6, g7⟩ := h
  have hp : w'.pc t = p := by rw [e5, putAt_same]
  constructor
  · intro u hu
    rw [e5, putAt_ne _ _ hu, e6 u hu]; exact h0 u hu
  all_goals grind

theorem lone_step {prog : Nat → List LifeCall} {w w' : LifeWorld} {t : Nat} (hi : LifeInv prog w) (h : Lone w t) (hw : toolkitStep true w t = .ok w') : Lone w' t := by
  have hin : InW (w.pc t) = true → w.lockW = some t := (hi.holdW t).1
  have hheld := hi.held t
  unfold toolkitStep at hw
  have good : ∀ {x : LifeWorld} {p : LifePc}, (Res.ok x : Res LifeWorld) = .ok w' → x.liveW = w.liveW → x.liveS = w.liveS → x.activeW = w.activeW →
      x.activeS = w.activeS → x.pc = putAt w.pc t p → x.todo = w.todo →
      ((∀ f, p ≠ .initW f ∧ p ≠ .markW f ∧ p ≠ .lockW f) ∧ (∀ u, p ≠ .initS u ∧ p ≠ .markS u ∧ p ≠ .lockS u) ∧ p ≠ .destroyDown ∧ p ≠ .markDown) →
      ((∀ f, w.pc t ≠ .markW f) ∧ (∀ u, w.pc t ≠ .markS u) ∧ w.pc t ≠ .markDown) → Lone w' t := by
    intro x p e a b c d e' f g k
    cases e
    exact lone_goto h a b c d e' (fun u _ => by rw [f]) g.1 g.2.1 g.2.2 k.1 k.2.1 k.2.2
  have hand : ∀ {x : LifeWorld} {p : LifePc}, (Res.ok x : Res LifeWorld) = .ok w' → x.pc = putAt w.pc t p → x.todo = w.todo →
      w'.pc t = p ∧ (∀ u, u ≠ t → w'.pc u = .idle ∧ w'.todo u = []) := by
    intro x p e a b
    cases e
    refine ⟨by rw [a, putAt_same], fun u hu => ?_⟩
    rw [a, b, putAt_ne _ _ hu]; exact h.others u hu
  obtain ⟨h0, h1, h2, h3, h4, h5, g1, g2, g3, g4, g5, g6, g7⟩ := id h
  cases hp : w.pc t with
  | idle =>
    simp only [hp] at hw
    split at hw
    · cases hw; exact h
    · rename_i f fs _
      cases hw
      refine lone_goto h (p := .testW f) rfl rfl rfl rfl rfl (fun u hu => ?_) (by simp) (by simp) (by simp) (by simp [hp]) (by simp [hp]) (by simp [hp])
      simp only [LifeWorld.goto]
      rw [putAt_ne _ _ hu]
  | testW f =>
    simp only [hp] at hw
    obtain ⟨k1, k2⟩ := hand hw rfl rfl
    cases hw
    simp only [LifeWorld.goto] at *
    constructor <;> simp only [] <;> grind
  | initW f =>
    simp only [hp, h3 f hp, Bool.false_eq_true, if_false] at hw
    obtain ⟨k1, k2⟩ := hand hw rfl rfl
    cases hw
    simp only [LifeWorld.goto] at *
    constructor <;> simp only [] <;> grind
  | markW f =>
    simp only [hp] at hw
    obtain ⟨k1, k2⟩ := hand hw rfl rfl
    cases hw
    simp only [LifeWorld.goto] at *
    constructor <;> simp only [] <;> grind
  | lockW f =>
    simp only [hp, h5 f hp, Bool.true_eq_false, if_false] at hw
    split at hw
    · cases hw; exact h
    · exact good hw (h5 f hp).symm rfl rfl rfl rfl rfl (by simp) (by simp [hp])
  | look f =>
    cases f <;> simp only [hp] at hw <;> exact good hw rfl rfl rfl rfl rfl rfl (by split <;> simp) (by simp [hp])
  | testS u =>
    simp only [hp] at hw
    obtain ⟨k1, k2⟩ := hand hw rfl rfl
    cases hw
    simp only [LifeWorld.goto] at *
    constructor <;> simp only [] <;> grind
  | initS u =>
    simp only [hp, g3 u hp, Bool.false_eq_true, if_false] at hw
    obtain ⟨k1, k2⟩ := hand hw rfl rfl
    cases hw
    simp only [LifeWorld.goto] at *
    constructor <;> simp only [] <;> grind
  | markS u =>
    simp only [hp] at hw
    obtain ⟨k1, k2⟩ := hand hw rfl rfl
    cases hw
    simp only [LifeWorld.goto] at *
    have hn : u.next = .start genesisOrder ∨ u.next = .lockS u := by cases u <;> simp [MutexUse.next]
    constructor <;> simp only [] <;> grind
  | lockS u =>
    simp only [hp, g5 u hp, Bool.true_eq_false, if_false] at hw
    split at hw
    · cases hw; exact h
    · exact good hw rfl (g5 u hp).symm rfl rfl rfl rfl (by simp) (by simp [hp])
  | work u =>
    cases u with
    | begin => simp only [hp] at hw; exact good hw rfl rfl rfl rfl rfl rfl (by simp) (by simp [hp])
    | activate c rest =>
      simp only [hp] at hw
      refine good hw ?_ ?_ ?_ ?_ (?_ : _ = putAt w.pc t (.unlockS (.activate c rest))) ?_ (by simp) (by simp [hp]) <;> simp only [LifeWorld.goto] <;> split <;> rfl
    | relinquish c rest =>
      simp only [hp] at hw
      split at hw
      · cases hw
      · split at hw
        · cases hw
        · exact good hw rfl rfl rfl rfl rfl rfl (by simp) (by simp [hp])
  | unlockS u => cases u <;> simp only [hp] at hw <;> exact good hw rfl rfl rfl rfl rfl rfl (by simp) (by simp [hp])
  | start rest =>
    cases rest with
    | nil => simp only [hp] at hw; exact good hw rfl rfl rfl rfl rfl rfl (by simp) (by simp [hp])
    | cons c rest =>
      simp only [hp] at hw
      refine good hw ?_ ?_ ?_ ?_ (?_ : _ = putAt w.pc t (.start rest)) ?_ (by simp) (by simp [hp]) <;> simp only [LifeWorld.goto, LifeWorld.load] <;>
        split <;> split <;> rfl
  | setOn => simp only [hp] at hw; exact good hw rfl rfl rfl rfl rfl rfl (by simp) (by simp [hp])
  | finish rest =>
    cases rest <;> simp only [hp] at hw
    · exact good hw rfl rfl rfl rfl rfl rfl (by simp) (by simp [hp])
    · exact good hw rfl rfl rfl rfl rfl rfl (by split <;> simp) (by simp [hp])
  | clear c rest =>
    simp only [hp] at hw
    split at hw
    · cases hw
    · split at hw
      · cases hw
      · refine good hw ?_ ?_ ?_ ?_ (?_ : _ = putAt w.pc t (.testS (.relinquish c rest))) ?_ (by simp) (by simp [hp]) <;> simp only [LifeWorld.goto, LifeWorld.unload] <;>
          split <;> rfl
  | setOff => simp only [hp] at hw; exact good hw rfl rfl rfl rfl rfl rfl (by simp) (by simp [hp])
  | leave f more => simp only [hp] at hw; exact good hw rfl rfl rfl rfl rfl rfl (by split <;> simp) (by simp [hp])
  | testDown =>
    simp only [hp] at hw
    obtain ⟨k1, k2⟩ := hand hw rfl rfl
    cases hw
    simp only [LifeWorld.goto] at *
    constructor <;> simp only [] <;> grind
  | destroyDown =>
    simp only [hp] at hw
    split at hw
    · cases hw
    · obtain ⟨k1, k2⟩ := hand hw rfl rfl
      cases hw
      simp only [LifeWorld.goto] at *
      constructor <;> simp only [] <;> grind
  | markDown =>
    simp only [hp] at hw
    obtain ⟨k1, k2⟩ := hand hw rfl rfl
    cases hw
    simp only [LifeWorld.goto] at *
    constructor <;> simp only [] <;> grind

theorem lone_run {prog : Nat → List LifeCall} (t : Nat) (sched : List Nat) : ∀ {w : LifeWorld}, LifeInv prog w → Lone w t →
    ∃ w', toolkitRun true w sched = .ok w' ∧ LifeInv prog w' ∧ Lone w' t := by
  induction sched with
  | nil => intro w h hp; exact ⟨w, rfl, h, hp⟩
  | cons u us ih =>
    intro w h hp
    by_cases hu : u = t
    · subst hu
      obtain ⟨w1, e1, h1⟩ := life_step (openmp := true) h u (lone_safe h hp)
      obtain ⟨w2, e2, h2⟩ := ih h1 (lone_step h hp e1)
      exact ⟨w2, by rw [toolkitRun, e1, Res.ok_bind, e2], h2⟩
    · obtain ⟨w2, e2, h2⟩ := ih h hp
      have : toolkitStep true w u = .ok w := by
        unfold toolkitStep
        rw [(hp.others u hu).1]
        simp only [(hp.others u hu).2]
      exact ⟨w2, by rw [toolkitRun, this, Res.ok_bind, e2], h2⟩

/-- An upper bound of the steps a thread takes until the end of the call. -/
def stepsLeft : LifePc → Nat
  | .idle => 0
  | .markDown => 1
  | .destroyDown => 2
  | .testDown => 3
  | .leave _ _ => 4
  | .setOn | .setOff => 5
  | .start rest => 6 + rest.length
  | .markS .begin => 12
  | .initS .begin => 13
  | .testS .begin => 14
  | .unlockS .begin => 15
  | .work .begin => 16
  | .lockS .begin => 17
  | .finish rest => 6 + 20 * rest.length
  | .unlockS (.relinquish _ rest) => 7 + 20 * rest.length
  | .work (.relinquish _ rest) => 8 + 20 * rest.length
  | .lockS (.relinquish _ rest) => 9 + 20 * rest.length
  | .markS (.relinquish _ rest) => 10 + 20 * rest.length
  | .initS (.relinquish _ rest) => 11 + 20 * rest.length
  | .testS (.relinquish _ rest) => 12 + 20 * rest.length
  | .clear _ rest => 13 + 20 * rest.length
  | .unlockS (.activate _ rest) => 14 + 20 * rest.length
  | .work (.activate _ rest) => 15 + 20 * rest.length
  | .lockS (.activate _ rest) => 16 + 20 * rest.length
  | .markS (.activate _ rest) => 17 + 20 * rest.length
  | .initS (.activate _ rest) => 18 + 20 * rest.length
  | .testS (.activate _ rest) => 19 + 20 * rest.length
  | .look _ => 100
  | .lockW _ => 101
  | .markW _ => 102
  | .initW _ => 103
  | .testW _ => 104

/-- An upper bound of the steps a thread has still to take. -/
def costOf (w : LifeWorld) (t : Nat) : Nat := stepsLeft (w.pc t) + 105 * (w.todo t).length

/-- The thread waits for a mutex, or has nothing to do. -/
def Waits (w : LifeWorld) (t : Nat) : Prop :=
  (w.pc t = .idle ∧ w.todo t = []) ∨ ((∃ f, w.pc t = .lockW f) ∧ w.lockW ≠ none) ∨ ((∃ u, w.pc t = .lockS u) ∧ w.lockS ≠ none)

theorem step_cost {openmp : Bool} {w w' : LifeWorld} {t : Nat} (hw : toolkitStep openmp w t = .ok w') :
    (w' = w ∧ Waits w t) ∨ (costOf w' t < costOf w t ∧ ∀ u, u ≠ t → w'.pc u = w.pc u ∧ w'.todo u = w.todo u) := by
  have good : ∀ {x : LifeWorld} {p : LifePc}, (Res.ok x : Res LifeWorld) = .ok w' → x.pc = putAt w.pc t p → x.todo = w.todo → stepsLeft p < stepsLeft (w.pc t) →
      (w' = w ∧ Waits w t) ∨ (costOf w' t < costOf w t ∧ ∀ u, u ≠ t → w'.pc u = w.pc u ∧ w'.todo u = w.todo u) := by
    intro x p e a b c
    cases e
    refine .inr ⟨?_, fun u hu => ?_⟩
    · unfold costOf; rw [a, b, putAt_same]; omega
    · rw [a, b, putAt_ne _ _ hu]; exact ⟨rfl, rfl⟩
  unfold toolkitStep at hw
  cases hp : w.pc t with
  | idle =>
    simp only [hp] at hw
    split at hw
    · cases hw; exact .inl ⟨rfl, .inl ⟨hp, by assumption⟩⟩
    · rename_i f fs hf
      cases hw
      refine .inr ⟨?_, fun u hu => ?_⟩
      · unfold costOf; simp only [LifeWorld.goto, putAt_same, hp, hf, stepsLeft, List.length_cons]; omega
      · simp only [LifeWorld.goto]; rw [putAt_ne _ _ hu, putAt_ne _ _ hu]; exact ⟨rfl, rfl⟩
  | testW f => simp only [hp] at hw; exact good hw rfl rfl (by rw [hp]; split <;> simp [stepsLeft])
  | initW f =>
    simp only [hp] at hw
    split at hw
    · cases hw
    · exact good hw rfl rfl (by rw [hp]; simp [stepsLeft])
  | markW f => simp only [hp] at hw; exact good hw rfl rfl (by rw [hp]; simp [stepsLeft])
  | lockW f =>
    simp only [hp] at hw
    split at hw
    · cases hw
    · split at hw
      · rename_i hl
        cases hw; exact .inl ⟨rfl, .inr (.inl ⟨⟨f, hp⟩, by rw [hl]; simp⟩)⟩
      · exact good hw rfl rfl (by rw [hp]; simp [stepsLeft])
  | look f => cases f <;> simp only [hp] at hw <;> exact good hw rfl rfl (by rw [hp]; split <;> simp [stepsLeft, terminusOrder])
  | testS u => simp only [hp] at hw; exact good hw rfl rfl (by rw [hp]; cases u <;> split <;> simp [stepsLeft])
  | initS u =>
    simp only [hp] at hw
    split at hw
    · cases hw
    · exact good hw rfl rfl (by rw [hp]; cases u <;> simp [stepsLeft])
  | markS u => simp only [hp] at hw; exact good hw rfl rfl (by rw [hp]; cases u <;> simp [stepsLeft, MutexUse.next, genesisOrder])
  | lockS u =>
    simp only [hp] at hw
    split at hw
    · cases hw
    · split at hw
      · rename_i hl
        cases hw; exact .inl ⟨rfl, .inr (.inr ⟨⟨u, hp⟩, by rw [hl]; simp⟩)⟩
      · exact good hw rfl rfl (by rw [hp]; cases u <;> simp [stepsLeft])
  | work u =>
    cases u with
    | begin => simp only [hp] at hw; exact good hw rfl rfl (by rw [hp]; simp [stepsLeft])
    | activate c rest =>
      simp only [hp] at hw
      refine good hw (?_ : _ = putAt w.pc t (.unlockS (.activate c rest))) ?_ (by rw [hp]; simp [stepsLeft]) <;> simp only [LifeWorld.goto] <;> split <;> rfl
    | relinquish c rest =>
      simp only [hp] at hw
      split at hw
      · cases hw
      · split at hw
        · cases hw
        · exact good hw rfl rfl (by rw [hp]; simp [stepsLeft])
  | unlockS u => cases u <;> simp only [hp] at hw <;> exact good hw rfl rfl (by rw [hp]; simp [stepsLeft])
  | start rest =>
    cases rest with
    | nil => simp only [hp] at hw; exact good hw rfl rfl (by rw [hp]; simp [stepsLeft])
    | cons c rest =>
      simp only [hp] at hw
      refine good hw (?_ : _ = putAt w.pc t (.start rest)) ?_ (by rw [hp]; simp [stepsLeft]) <;> simp only [LifeWorld.goto, LifeWorld.load] <;>
        split <;> split <;> rfl
  | setOn => simp only [hp] at hw; exact good hw rfl rfl (by rw [hp]; simp [stepsLeft])
  | finish rest =>
    cases rest <;> simp only [hp] at hw
    · exact good hw rfl rfl (by rw [hp]; simp [stepsLeft])
    · exact good hw rfl rfl (by rw [hp]; split <;> simp only [stepsLeft, List.length_cons] <;> omega)
  | clear c rest =>
    simp only [hp] at hw
    split at hw
    · cases hw
    · split at hw
      · cases hw
      · refine good hw (?_ : _ = putAt w.pc t (.testS (.relinquish c rest))) ?_ (by rw [hp]; simp [stepsLeft]) <;> simp only [LifeWorld.goto, LifeWorld.unload] <;>
          split <;> rfl
  | setOff => simp only [hp] at hw; exact good hw rfl rfl (by rw [hp]; simp [stepsLeft])
  | leave f more => simp only [hp] at hw; exact good hw rfl rfl (by rw [hp]; split <;> simp [stepsLeft])
  | testDown => simp only [hp] at hw; exact good hw rfl rfl (by rw [hp]; split <;> simp [stepsLeft])
  | destroyDown =>
    simp only [hp] at hw
    split at hw
    · cases hw
    · exact good hw rfl rfl (by rw [hp]; simp [stepsLeft])
  | markDown => simp only [hp] at hw; exact good hw rfl rfl (by rw [hp]; simp [stepsLeft])

/-- All threads' bounds together. -/
def costAll (w : LifeWorld) (n : Nat) : Nat := ((List.range n).map (costOf w)).sum

theorem sum_range_lt {f g : Nat → Nat} {t : Nat} (hlt : f t < g t) (heq : ∀ u, u ≠ t → f u = g u) : ∀ n, t < n →
    ((List.range n).map f).sum < ((List.range n).map g).sum := by
  have same : ∀ n, n ≤ t → ((List.range n).map f).sum = ((List.range n).map g).sum := by
    intro n hn
    congr 1
    apply List.map_congr_left
    intro u hu
    exact heq u (by have := List.mem_range.1 hu; omega)
  intro n hn
  induction n with
  | zero => omega
  | succ n ih =>
    simp only [List.range_succ, List.map_append, List.map_cons, List.map_nil, List.sum_append, List.sum_cons, List.sum_nil, Nat.add_zero]
    by_cases e : n = t
    · subst e
      rw [same n (Nat.le_refl _)]; omega
    · have := ih (by omega)
      rw [heq n e]; omega

theorem some_moves {prog : Nat → List LifeCall} {w : LifeWorld} (h : LifeInv prog w) {n : Nat} (hn : ∀ t, n ≤ t → w.pc t = .idle ∧ w.todo t = [])
    (hw : ∀ t, t < n → Waits w t) : Finished w := by
  have all : ∀ t, Waits w t := fun t => by
    by_cases e : t < n
    · exact hw t e
    · exact .inl (hn t (by omega))
  have hS : w.lockS = none := by
    cases hs : w.lockS with
    | none => rfl
    | some u =>
      have := (h.holdS u).2 hs
      rcases all u with ⟨a, _⟩ | ⟨⟨f, a⟩, _⟩ | ⟨⟨f, a⟩, _⟩ <;> rw [a] at this <;> cases this
  have hW : w.lockW = none := by
    cases hs : w.lockW with
    | none => rfl
    | some u =>
      have := (h.holdW u).2 hs
      rcases all u with ⟨a, _⟩ | ⟨⟨f, a⟩, _⟩ | ⟨⟨f, a⟩, b⟩
      · rw [a] at this; cases this
      · rw [a] at this; cases this
      · exact absurd hS b
  intro t
  rcases all t with a | ⟨_, b⟩ | ⟨_, b⟩
  · exact a
  · exact absurd hW b
  · exact absurd hS b

theorem plain_finish {prog : Nat → List LifeCall} {n : Nat} : ∀ (k : Nat) {w : LifeWorld}, LifeInv prog w → PlainLocks w → (∀ t, n ≤ t → w.pc t = .idle ∧ w.todo t = []) →
    costAll w n ≤ k → ∃ more w', toolkitRun false w more = .ok w' ∧ Finished w' := by
  intro k
  induction k with
  | zero =>
    intro w h hp hn hk
    refine ⟨[], w, rfl, ?_⟩
    refine some_moves h hn fun t ht => ?_
    obtain ⟨w', e, _⟩ := life_step (openmp := false) h t (plain_safe hp t)
    rcases step_cost e with ⟨_, a⟩ | ⟨a, b⟩
    · exact a
    · have := sum_range_lt (f := costOf w') (g := costOf w) a (fun u hu => by unfold costOf; rw [(b u hu).1, (b u hu).2]) n ht
      unfold costAll at hk
      omega
  | succ k ih =>
    intro w h hp hn hk
    by_cases hall : ∀ t, t < n → Waits w t
    · exact ⟨[], w, rfl, some_moves h hn hall⟩
    · obtain ⟨t, ht⟩ := Classical.not_forall.1 hall
      obtain ⟨ht, hnw⟩ := Classical.not_imp.1 ht
      obtain ⟨w', e, h'⟩ := life_step (openmp := false) h t (plain_safe hp t)
      rcases step_cost e with ⟨_, a⟩ | ⟨a, b⟩
      · exact absurd a hnw
      · have hlt := sum_range_lt (f := costOf w') (g := costOf w) a (fun u hu => by unfold costOf; rw [(b u hu).1, (b u hu).2]) n ht
        obtain ⟨more, w2, e2, f2⟩ := ih h' (plain_step hp e) (fun u hu => by
          have hu' : u ≠ t := by omega
          rw [(b u hu').1, (b u hu').2]; exact hn u hu) (by unfold costAll at *; omega)
        exact ⟨t :: more, w2, by rw [toolkitRun, e, Res.ok_bind, e2], f2⟩

theorem beyond_run {n : Nat} (sched : List Nat) : ∀ {w w' : LifeWorld}, (∀ t, n ≤ t → w.pc t = .idle ∧ w.todo t = []) → toolkitRun false w sched = .ok w' →
    ∀ t, n ≤ t → w'.pc t = .idle ∧ w'.todo t = [] := by
  induction sched with
  | nil => intro w w' h e; cases e; exact h
  | cons u us ih =>
    intro w w' h e
    rw [toolkitRun] at e
    cases hs : toolkitStep false w u with
    | ok w1 =>
      rw [hs, Res.ok_bind] at e
      refine ih (fun t ht => ?_) e
      rcases step_cost hs with ⟨a, _⟩ | ⟨a, b⟩
      · rw [a]; exact h t ht
      · by_cases hu : t = u
        · subst hu
          unfold toolkitStep at hs
          rw [(h t ht).1] at hs
          simp only [(h t ht).2] at hs
          cases hs
          exact h t ht
        · rw [(b t hu).1, (b t hu).2]; exact h t ht
    | ub => rw [hs] at e; cases e
    | fatal => rw [hs] at e; cases e

/-- **C167**, in part: with pthreads, for every number of threads, all that they call and every schedule: nothing is undefined; whenever no
thread is in a call, the toolkit is on if the last of the calls was `WizardsToolkitGenesis`, and its components are there, or it is off,
and they are not; the calls take effect one after the other, those of each thread in their order; no semaphore is given back twice or used
after that; and all threads can finish, whatever happened so far (no deadlock).  Missing: the semaphore of the configure component, see
`C167_configure_violated`, and OpenMP, see `C167_race_violated`. -/
theorem C167_threads_partial (prog : Nat → List LifeCall) (n : Nat) (hn : ∀ t, n ≤ t → prog t = []) (sched : List Nat) :
    ∃ w, toolkitRun false (.begin false prog) sched = .ok w ∧ Accounted w ∧ (Quiet w → Settled w) ∧
      (∀ t, callsOf t w.order <+: prog t) ∧ (Finished w → ∀ t, callsOf t w.order = prog t) ∧
      ∃ more w', toolkitRun false w more = .ok w' ∧ Finished w' := by
  obtain ⟨w, e, h, hp⟩ := plain_run sched (inv_begin false prog) (plain_begin prog)
  refine ⟨w, e, h.acc, settled_of h, fun t => ⟨_, by rw [← List.append_assoc]; exact h.calls t⟩, fun hf t => ?_, ?_⟩
  · have := h.calls t
    rw [(hf t).1, (hf t).2] at this
    simpa [pendingOf] using this
  · exact plain_finish _ h hp (beyond_run sched (fun t ht => ⟨rfl, hn t ht⟩) e) (Nat.le_refl _)

/-- **C167**, in part: with pthreads, when threads only call `WizardsToolkitGenesis`: from the first return of one of the calls on, the toolkit
and all components are there, whatever the other threads are doing. -/
theorem C167_up_partial (prog : Nat → List LifeCall) (hg : ∀ t, .terminus ∉ prog t) (sched : List Nat) :
    ∃ w, toolkitRun false (.begin false prog) sched = .ok w ∧ (w.order ≠ [] → w.on = true ∧ (∀ c, w.sem c ≠ none) ∧ w.cache = true) := by
  obtain ⟨w, e, h, hp⟩ := plain_run sched (inv_begin false prog) (plain_begin prog)
  refine ⟨w, e, fun hne => ?_⟩
  have hno : ∀ x ∈ w.order, x.2 = .genesis := by
    intro x hx
    have hm : x.2 ∈ prog x.1 := by
      rw [← h.calls x.1]
      refine List.mem_append_left _ (List.mem_append_left _ ?_)
      exact List.mem_map.2 ⟨x, List.mem_filter.2 ⟨hx, by simp⟩, rfl⟩
    cases hc : x.2 with
    | genesis => rfl
    | terminus => rw [hc] at hm; exact absurd hm (hg x.1)
  have hlast : lastOn w.order = true := by
    rcases List.eq_nil_or_concat w.order with e | ⟨l, ⟨t, f⟩, e⟩
    · exact absurd e hne
    · rw [List.concat_eq_append] at e
      rw [e, lastOn_snoc]
      have := hno (t, f) (by rw [e]; simp)
      simpa using this
  have hback : ∀ {o : Bool}, Between o w.sem w.cache w.order → o = true ∧ (∀ c, w.sem c ≠ none) ∧ w.cache = true := by
    intro o ⟨a, b, _⟩
    have ho := a.trans hlast
    exact ⟨ho, b ho⟩
  have hpend : ∀ t, .terminus ∉ pendingOf (w.pc t) := by
    intro t hm
    refine hg t ?_
    rw [← h.calls t]
    exact List.mem_append_left _ (List.mem_append_right _ hm)
  cases hw : w.lockW with
  | none => exact hback (h.free hw)
  | some t =>
    have hsh := h.held t hw
    have hin := (h.holdW t).2 hw
    have hpt := hpend t
    cases hpc : w.pc t with
    | look f => rw [hpc] at hsh; exact hback hsh
    | testS u =>
      rw [hpc] at hsh hpt
      cases u with
      | begin => exact hback hsh.2
      | activate c r => exact absurd (by simp [pendingOf]) hpt
      | relinquish c r => exact absurd (by simp [pendingOf]) hpt
    | initS u =>
      rw [hpc] at hsh hpt
      cases u with
      | begin => exact hback hsh.2
      | activate c r => exact absurd (by simp [pendingOf]) hpt
      | relinquish c r => exact absurd (by simp [pendingOf]) hpt
    | markS u =>
      rw [hpc] at hsh hpt
      cases u with
      | begin => exact hback hsh.2
      | activate c r => exact absurd (by simp [pendingOf]) hpt
      | relinquish c r => exact absurd (by simp [pendingOf]) hpt
    | start rest => rw [hpc] at hsh; have := hsh.2.1; rw [hlast] at this; cases this
    | setOn => rw [hpc] at hsh; have := hsh.2.1; rw [hlast] at this; cases this
    | leave f more =>
      rw [hpc] at hsh hpt
      obtain ⟨a, b, _⟩ := hsh
      cases f with
      | terminus => exact absurd (by simp [pendingOf]) hpt
      | genesis => rw [lastOn_snoc] at a; exact ⟨a, b a⟩
    | lockS u => rw [hpc] at hsh hpt; cases u <;> first | exact hsh.elim | exact absurd (by simp [pendingOf]) hpt
    | work u => rw [hpc] at hsh hpt; cases u <;> first | exact hsh.elim | exact absurd (by simp [pendingOf]) hpt
    | unlockS u => rw [hpc] at hsh hpt; cases u <;> first | exact hsh.elim | exact absurd (by simp [pendingOf]) hpt
    | finish rest => rw [hpc] at hpt; exact absurd (by simp [pendingOf]) hpt
    | clear c rest => rw [hpc] at hpt; exact absurd (by simp [pendingOf]) hpt
    | setOff => rw [hpc] at hpt; exact absurd (by simp [pendingOf]) hpt
    | idle => rw [hpc] at hin; cases hin
    | testW f => rw [hpc] at hin; cases hin
    | initW f => rw [hpc] at hin; cases hin
    | markW f => rw [hpc] at hin; cases hin
    | lockW f => rw [hpc] at hin; cases hin
    | testDown => rw [hpc] at hin; cases hin
    | destroyDown => rw [hpc] at hin; cases hin
    | markDown => rw [hpc] at hin; cases hin

theorem lone_begin (prog : Nat → List LifeCall) (t : Nat) (ho : ∀ u, u ≠ t → prog u = []) : Lone (.begin true prog) t := by
  constructor <;> simp_all [LifeWorld.begin]

/-- **C167**, in part: with OpenMP, if only one thread calls the two functions, in whatever order and however often: nothing is undefined,
and between its calls the toolkit is on or off as the last call says. -/
theorem C167_one_partial (prog : Nat → List LifeCall) (t : Nat) (ho : ∀ u, u ≠ t → prog u = []) (sched : List Nat) :
    ∃ w, toolkitRun true (.begin true prog) sched = .ok w ∧ Accounted w ∧ (Quiet w → Settled w) ∧ callsOf t w.order <+: prog t ∧
      (Finished w → callsOf t w.order = prog t) := by
  obtain ⟨w, e, h, hp⟩ := lone_run t sched (inv_begin true prog) (lone_begin prog t ho)
  refine ⟨w, e, h.acc, settled_of h, ⟨_, by rw [← List.append_assoc]; exact h.calls t⟩, fun hf => ?_⟩
  have := h.calls t
  rw [(hf t).1, (hf t).2] at this
  simpa [pendingOf] using this

/-- Two threads that start the toolkit, and two that start it and end it. -/
def twoStart : Nat → List LifeCall := fun t => if t < 2 then [.genesis] else []
def twoBoth : Nat → List LifeCall := fun t => if t < 2 then [.genesis, .terminus] else []

/-- **C167** (violated): with OpenMP, two threads that start the toolkit at the same time: both find the mutex not initialised, and the
second initialises it again. -/
theorem C167_race_violated : toolkitRun true (.begin true twoStart) [0, 0, 1, 1, 0, 1] = .ub := by rfl

/-- **C167** (violated): with OpenMP, `WizardsToolkitTerminus` destroys the mutex of the semaphores after it let the other threads go on, which
may hold it by then. -/
theorem C167_down_violated : toolkitRun true (.begin true twoBoth) (List.replicate 53 0 ++ List.replicate 25 1 ++ [0, 0]) = .ub := by rfl

/-- **C167** (violated): whatever the threads call and however they are scheduled, when `WizardsToolkitGenesis` was called at least once, then
after the last call there is a semaphore that was not given back: `WizardsToolkitTerminus` does not end the configure component. -/
theorem C167_configure_violated (prog : Nat → List LifeCall) (sched : List Nat) (w : LifeWorld) (hr : toolkitRun false (.begin false prog) sched = .ok w)
    (hq : Quiet w) (he : everOn w.order) : ∃ s, w.sem .configure = some s ∧ s < w.made ∧ s ∉ w.gone := by
  obtain ⟨w', e, h, hp⟩ := plain_run sched (inv_begin false prog) (plain_begin prog)
  rw [hr] at e
  cases e
  have hl : w.lockW = none := by
    cases hw : w.lockW with
    | none => rfl
    | some t => have := (h.holdW t).2 hw; rw [hq t] at this; cases this
  obtain ⟨a, b, c⟩ := h.free hl
  have hs : w.sem .configure ≠ none := by
    cases ho : w.on with
    | true => exact (b ho).1 _
    | false => exact (c ho).2.2.2 he
  cases hc : w.sem .configure with
  | none => exact absurd hc hs
  | some s => exact ⟨s, rfl, (h.acc.all s).2 (.inr ⟨_, hc⟩), h.acc.live _ _ hc⟩

/-- Two threads that start and end the toolkit, one after the other, by turns and together. -/
example : ∀ t, 2 ≤ t → twoBoth t = [] := fun t h => by unfold twoBoth; rw [if_neg (by omega)]
example : ∀ t, LifeCall.terminus ∉ twoStart t := fun t => by unfold twoStart; split <;> simp
example : (match toolkitRun false (.begin false twoBoth) (List.replicate 60 0 ++ List.replicate 60 1) with
    | .ok w => decide (w.order = [(0, .genesis), (0, .terminus), (1, .genesis), (1, .terminus)] ∧ w.made = 9 ∧ w.gone = [5, 6, 7, 8, 0, 1, 3, 4] ∧
      w.sem .configure = some 2 ∧ w.on = false)
    | _ => false) = true := by decide +kernel
example : (match toolkitRun false (.begin false twoBoth) (List.replicate 16 0 ++ List.replicate 60 1 ++ List.replicate 60 0) with
    | .ok w => decide (w.order = [(0, .genesis), (1, .genesis), (1, .terminus), (0, .terminus)] ∧ w.on = false)
    | _ => false) = true := by decide +kernel

end Wizard.Props
