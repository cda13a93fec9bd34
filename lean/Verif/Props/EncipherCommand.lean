import Verif.Spec.EncipherCommand
import Verif.Props.Packet
/-! C154: the command line of `encipher`. -/
namespace Wizard.Props
open Wizard Wizard.Spec.Command

/-- What a `Given` does. -/
def applyGiven (g : Given) (st : CommandState) : CommandState :=
  match g with
  | .authenticate _ v => { st with settings := { st.settings with authenticate := v } }
  | .cipher _ v => { st with settings := { st.settings with cipher := v } }
  | .mode _ v => { st with settings := { st.settings with mode := v } }
  | .entropy _ v => { st with settings := { st.settings with entropy := v } }
  | .hmac _ v => { st with settings := { st.settings with hmac := v } }
  | .key _ v => { st with settings := { st.settings with keyHash := v } }
  | .level _ v => { st with settings := { st.settings with level := v.setWidth 32 } }
  | .chunksize _ n => { st with settings := { st.settings with chunksize := n } }
  | .keyring w => { st with keyring := some w }
  | .passphrase w => { st with passphrase := some w }
  | .properties w => { st with properties := some w }
  | .verbose on => { st with verbose := on }
  | .trueRandom on => { st with trueRandom := on }
  | .file w => match st.plain with
    | none => { st with plain := some w }
    | some _ => { st with cipherName := some w }

theorem apply_first {st : CommandState} (h : st.plain = none) (w : List Byte) : applyGiven (.file w) st = { st with plain := some w } := by
  show (match st.plain with | none => { st with plain := some w } | some _ => { st with cipherName := some w }) = _
  rw [h]

theorem apply_second {st : CommandState} {a : List Byte} (h : st.plain = some a) (w : List Byte) : applyGiven (.file w) st = { st with cipherName := some w } := by
  show (match st.plain with | none => { st with plain := some w } | some _ => { st with cipherName := some w }) = _
  rw [h]

theorem file_no_option {env : CommandEnv} {w : List Byte} (hg : (Given.file w).OK env) : isWizardOption w = false := by
  match w, hg with
  | [], _ => rfl
  | [c], _ => rfl
  | c :: d :: r, hg =>
    rcases hg c d r rfl with ⟨h1, h2⟩ | h
    · simp [isWizardOption, h1, h2]
    · simp [isWizardOption, h]

theorem command_tables : ∀ table ∈ [cipherOptions, modeOptions, authenticateOptions, hashOptions, entropyOptions, entropyLevelOptions], (∀ o ∈ table, (0 : Byte) ∉ o.mnemonic) ∧ ∀ o ∈ table, o.type.msb = false := by
  decide +kernel

theorem named_mem {fold : Byte → Byte} {table : List OptionInfo} {w : List Byte} {o : OptionInfo} (h : Spec.Opt.named fold table w = some o) : o ∈ table := by
  have he : ∀ w o, Spec.Opt.entry fold table w = some o → o ∈ table := by
    intro w o h
    unfold Spec.Opt.entry at h
    exact List.mem_of_find?_eq_some h
  unfold Spec.Opt.named at h
  split at h
  · rename_i h'; cases h; exact he _ _ h'
  · split at h
    · exact he _ _ h
    · cases h

theorem named_option (env : CommandEnv) (hj : env.junk.length = 4096) {table : List OptionInfo} (ht : table ∈ [cipherOptions, modeOptions, authenticateOptions, hashOptions, entropyOptions, entropyLevelOptions])
    {w : List Byte} {v : BitVec 64} (h : Names table w v) (f : BitVec 64 → CommandStep) : withOption env table w f = .ok (f v) := by
  obtain ⟨h1, ⟨c, r, h2, h3, h4, h5⟩, h6, h7⟩ := h
  obtain ⟨t1, t2⟩ := command_tables table ht
  have hi : (wordItem w v).OK cLocaleLower table :=
    ⟨⟨fun c hc => absurd hc List.not_mem_nil, .inl rfl, h1, ⟨c, r, h2, h3, fun _ _ => ⟨h4, h5⟩⟩, by show w.length < 4096; omega, ⟨fun c hc => absurd hc List.not_mem_nil, fun c hc => by cases hc⟩⟩, h7, fun _ => h6⟩
  have hp := (C51_single cLocaleLower cLocaleLower_ok table t1 env.junk [] hj _ hi).1
  rw [show (wordItem w v).text = w by simp [wordItem, Spec.Opt.Item.text]] at hp
  have hm : v.msb = false := by
    cases hn : Spec.Opt.named cLocaleLower table w with
    | none => rw [hn] at h7; cases h7
    | some o =>
      rw [hn] at h7
      rw [← Option.some.inj h7]
      exact t2 o (named_mem hn)
  rw [withOption, hp, Res.ok_bind]
  show (if v.msb then Res.ok CommandStep.failed else .ok (f v)) = _
  rw [hm]; rfl

theorem as_unsigned {w n : Nat} (h : n < 2 ^ w) : asUnsigned w (n : Int) = .ok n := by
  unfold asUnsigned
  rw [if_pos ⟨Int.natCast_nonneg n, by exact_mod_cast h⟩, Int.toNat_natCast]

/-- The step for a `Given`. -/
theorem command_step (env : CommandEnv) (hj : env.junk.length = 4096) (g : Given) (hg : g.OK env) (rest : List (List Byte)) (st : CommandState) (hf : ∀ w, g = .file w → st.cipherName = none) :
    ∃ o args, g.words ++ rest = o :: args ∧ commandStep env o args st = .ok (.go (applyGiven g st) rest) := by
  cases g with
  | authenticate w v =>
    refine ⟨_, w :: rest, rfl, ?_⟩
    have : commandStep env (ascText "-authenticate") (w :: rest) st = withOption env authenticateOptions w fun v => if v = 2 then .failed else .go { st with settings := { st.settings with authenticate := v } } rest := rfl
    rw [this, named_option env hj (by simp) hg.1, if_neg hg.2]; rfl
  | cipher w v =>
    refine ⟨_, w :: rest, rfl, ?_⟩
    have : commandStep env (ascText "-cipher") (w :: rest) st = withOption env cipherOptions w fun v => .go { st with settings := { st.settings with cipher := v } } rest := rfl
    rw [this, named_option env hj (by simp) hg]; rfl
  | mode w v =>
    refine ⟨_, w :: rest, rfl, ?_⟩
    have : commandStep env (ascText "-mode") (w :: rest) st = withOption env modeOptions w fun v => .go { st with settings := { st.settings with mode := v } } rest := rfl
    rw [this, named_option env hj (by simp) hg]; rfl
  | entropy w v =>
    refine ⟨_, w :: rest, rfl, ?_⟩
    have : commandStep env (ascText "-entropy") (w :: rest) st = withOption env entropyOptions w fun v => .go { st with settings := { st.settings with entropy := v } } rest := rfl
    rw [this, named_option env hj (by simp) hg]; rfl
  | hmac w v =>
    refine ⟨_, w :: rest, rfl, ?_⟩
    have : commandStep env (ascText "-hmac") (w :: rest) st = withOption env hashOptions w fun v => .go { st with settings := { st.settings with hmac := v } } rest := rfl
    rw [this, named_option env hj (by simp) hg]; rfl
  | key w v =>
    refine ⟨_, w :: rest, rfl, ?_⟩
    have : commandStep env (ascText "-key") (w :: rest) st = withOption env hashOptions w fun v => .go { st with settings := { st.settings with keyHash := v } } rest := rfl
    rw [this, named_option env hj (by simp) hg]; rfl
  | level w v =>
    refine ⟨_, w :: rest, rfl, ?_⟩
    have : commandStep env (ascText "-level") (w :: rest) st = withOption env entropyLevelOptions w fun v => .go { st with settings := { st.settings with level := v.setWidth 32 } } rest := rfl
    rw [this, named_option env hj (by simp) hg]; rfl
  | chunksize w n =>
    refine ⟨_, w :: rest, rfl, ?_⟩
    have : commandStep env (ascText "-chunksize") (w :: rest) st = match env.number w with
      | none => .ok .failed
      | some v => (asUnsigned 64 v).bind fun n => .ok (.go { st with settings := { st.settings with chunksize := n } } rest) := rfl
    rw [this, hg.1]
    simp only []
    rw [as_unsigned hg.2]; rfl
  | keyring w => exact ⟨_, _, rfl, rfl⟩
  | passphrase w => exact ⟨_, _, rfl, rfl⟩
  | properties w => exact ⟨_, _, rfl, rfl⟩
  | verbose on => cases on <;> exact ⟨_, _, rfl, rfl⟩
  | trueRandom on => cases on <;> exact ⟨_, _, rfl, rfl⟩
  | file w =>
    refine ⟨w, rest, rfl, ?_⟩
    have hw := file_no_option hg
    rw [commandStep, if_pos hw, nameOfFile, hf w rfl]
    cases hp : st.plain with
    | none => rw [apply_first hp, hf w rfl]
    | some p => rw [apply_second hp, hp]

/-- The names of files so far. -/
def filesOf (st : CommandState) : List (List Byte) := st.plain.toList ++ st.cipherName.toList

theorem words_length (g : Given) : 1 ≤ g.words.length := by cases g <;> exact Nat.le_add_left 1 _

theorem apply_plain (g : Given) (st : CommandState) (h : ∀ w, g ≠ .file w) : (applyGiven g st).plain = st.plain ∧ (applyGiven g st).cipherName = st.cipherName ∧ g.file? = none := by
  cases g with
  | file w => exact absurd rfl (h w)
  | _ => exact ⟨rfl, rfl, rfl⟩

theorem command_loop (env : CommandEnv) (hj : env.junk.length = 4096) : ∀ (gs : List Given) (st : CommandState) (fuel : Nat), (∀ g ∈ gs, g.OK env) → (st.plain = none → st.cipherName = none) →
    filesOf st ++ gs.filterMap Given.file? = [p, c] → (gs.flatMap Given.words).length ≤ fuel →
    commandLoop env fuel (gs.flatMap Given.words) st = .ok (.run (gs.foldl (fun st g => applyGiven g st) st) p c) := by
  intro gs
  induction gs with
  | nil =>
    intro st fuel _ _ hf _
    rw [List.flatMap_nil, List.foldl_nil]
    rw [List.filterMap_nil, List.append_nil] at hf
    unfold filesOf at hf
    unfold commandLoop
    cases hp : st.plain with
    | none =>
      rw [hp] at hf
      cases hc : st.cipherName <;> rw [hc] at hf <;> simp at hf
    | some a =>
      cases hc : st.cipherName with
      | none => rw [hp, hc] at hf; simp at hf
      | some b =>
        rw [hp, hc] at hf
        simp only [Option.toList_some, List.cons_append, List.nil_append, List.cons.injEq, and_true] at hf
        rw [hf.1, hf.2]
  | cons g gs ih =>
    intro st fuel hok hst hf hl
    have hstep : ∀ w, g = .file w → st.cipherName = none := by
      rintro w rfl
      rw [List.filterMap_cons] at hf
      simp only [Given.file?] at hf
      have := congrArg List.length hf
      unfold filesOf at this
      cases hp : st.plain with
      | none => exact hst hp
      | some a =>
        cases hc : st.cipherName with
        | none => rfl
        | some b => rw [hp, hc] at this; simp at this
    obtain ⟨o, args, e1, e2⟩ := command_step env hj g (hok g List.mem_cons_self) (gs.flatMap Given.words) st hstep
    rw [List.flatMap_cons] at hl ⊢
    have hw := words_length g
    rw [List.length_append] at hl
    cases fuel with
    | zero => omega
    | succ fuel =>
      rw [e1, commandLoop, e2, Res.ok_bind]
      simp only []
      have hfiles : filesOf (applyGiven g st) ++ gs.filterMap Given.file? = [p, c] ∧ ((applyGiven g st).plain = none → (applyGiven g st).cipherName = none) := by
        by_cases hg : ∃ w, g = .file w
        · obtain ⟨w, rfl⟩ := hg
          rw [List.filterMap_cons] at hf
          simp only [Given.file?] at hf
          have hcn := hstep w rfl
          cases hp : st.plain with
          | none =>
            rw [apply_first hp]
            refine ⟨?_, fun h => by cases h⟩
            rw [← hf]
            simp [filesOf, hp, hcn]
          | some a =>
            rw [apply_second hp]
            refine ⟨?_, fun h => by rw [show _ = some a from hp] at h; cases h⟩
            rw [← hf]
            simp [filesOf, hp, hcn]
        · obtain ⟨a1, a2, a3⟩ := apply_plain g st fun w h => hg ⟨w, h⟩
          rw [List.filterMap_cons, a3] at hf
          simp only [] at hf
          refine ⟨?_, by rw [a1, a2]; exact hst⟩
          unfold filesOf at hf ⊢
          rw [a1, a2]; exact hf
      rw [ih _ fuel (fun g' h => hok g' (List.mem_cons_of_mem _ h)) hfiles.2 hfiles.1 (by omega)]
      rfl

theorem fold_last {α : Type} (f : CommandState → α) (pick : Given → Option α) (h : ∀ g st, f (applyGiven g st) = (pick g).getD (f st)) :
    ∀ (gs : List Given) (st : CommandState), f (gs.foldl (fun st g => applyGiven g st) st) = (last pick gs).getD (f st) := by
  intro gs
  induction gs with
  | nil => intro st; rfl
  | cons g gs ih =>
    intro st
    rw [List.foldl_cons, ih, h]
    unfold last
    rw [List.filterMap_cons]
    cases pick g with
    | none => rfl
    | some v =>
      simp only [Option.getD_some]
      rw [List.getLast?_cons]
      simp

theorem fold_last? {α : Type} (f : CommandState → Option α) (pick : Given → Option α) (h : ∀ g st, f (applyGiven g st) = (pick g).or (f st)) :
    ∀ (gs : List Given) (st : CommandState), f (gs.foldl (fun st g => applyGiven g st) st) = (last pick gs).or (f st) := by
  intro gs
  induction gs with
  | nil => intro st; rfl
  | cons g gs ih =>
    intro st
    rw [List.foldl_cons, ih, h]
    unfold last
    rw [List.filterMap_cons]
    cases pick g with
    | none => rfl
    | some v =>
      simp only [Option.some_or]
      rw [List.getLast?_cons]
      cases (gs.filterMap pick).getLast? <;> rfl

/-- A field that a file does not change either. -/
theorem apply_field {α : Type} (f : CommandState → α) (pick : Given → Option α) (h : ∀ g st, (∀ w, g ≠ .file w) → f (applyGiven g st) = (pick g).getD (f st)) (hp : ∀ w, pick (.file w) = none)
    (h1 : ∀ st x, f { st with plain := x } = f st) (h2 : ∀ st x, f { st with cipherName := x } = f st) (g : Given) (st : CommandState) : f (applyGiven g st) = (pick g).getD (f st) := by
  by_cases hg : ∃ w, g = .file w
  · obtain ⟨w, rfl⟩ := hg
    rw [hp]
    cases hpl : st.plain with
    | none => rw [apply_first hpl]; exact h1 st _
    | some a => rw [apply_second hpl]; exact h2 st _
  · exact h g st fun w hw => hg ⟨w, hw⟩

theorem apply_field? {α : Type} (f : CommandState → Option α) (pick : Given → Option α) (h : ∀ g st, (∀ w, g ≠ .file w) → f (applyGiven g st) = (pick g).or (f st)) (hp : ∀ w, pick (.file w) = none)
    (h1 : ∀ st x, f { st with plain := x } = f st) (h2 : ∀ st x, f { st with cipherName := x } = f st) (g : Given) (st : CommandState) : f (applyGiven g st) = (pick g).or (f st) := by
  by_cases hg : ∃ w, g = .file w
  · obtain ⟨w, rfl⟩ := hg
    rw [hp]
    cases hpl : st.plain with
    | none => rw [apply_first hpl]; exact h1 st _
    | some a => rw [apply_second hpl]; exact h2 st _
  · exact h g st fun w hw => hg ⟨w, hw⟩

/-- **C154** (partial): whatever options, switches and two names of files are given, in any order and any number, `encipher` reads the first file and writes the second with the settings that are
asked for: for each setting the last option that names it counts, and without one the default. What is missing: the length of the key, `-debug`, `-log`, `-list`, `-random`, `-(de)compress`, and options
that mean nothing. -/
theorem C154_options_partial (env : CommandEnv) (hj : env.junk.length = 4096) (version : List Byte) (gs : List Given) (hok : ∀ g ∈ gs, g.OK env) (p c : List Byte) (hf : gs.filterMap Given.file? = [p, c]) :
    ∃ st, encipherCommand env version (gs.flatMap Given.words) = .ok (.run st p c) ∧
      st.settings = {
        cipher := (last Given.cipher? gs).getD 2, mode := (last Given.mode? gs).getD 3, nonce := [], authenticate := (last Given.authenticate? gs).getD 1, id := [],
        keyHash := (last Given.key? gs).getD 7, keyLength := 512, entropy := (last Given.entropy? gs).getD 3, level := (last Given.level? gs).getD 6, hmac := (last Given.hmac? gs).getD 7,
        chunksize := (last Given.chunksize? gs).getD 262144, version := version } ∧
      st.keyring = last Given.keyring? gs ∧ st.passphrase = last Given.passphrase? gs ∧ st.properties = last Given.properties? gs ∧ st.compress = true ∧
      st.verbose = (last Given.verbose? gs).getD false ∧ st.trueRandom = (last Given.trueRandom? gs).getD false := by
  have hlen : 2 ≤ (gs.flatMap Given.words).length := by
    have key : ∀ gs : List Given, (gs.filterMap Given.file?).length ≤ (gs.flatMap Given.words).length := by
      intro gs
      induction gs with
      | nil => exact Nat.le_refl _
      | cons g gs ih =>
        have := words_length g
        rw [List.flatMap_cons, List.length_append, List.filterMap_cons]
        split
        · omega
        · rw [List.length_cons]; omega
    have := key gs
    rw [hf] at this
    exact this
  refine ⟨gs.foldl (fun st g => applyGiven g st) (commandStart version), ?_, ?_, ?_, ?_, ?_, ?_, ?_, ?_⟩
  · rw [encipherCommand, if_neg (by omega), if_neg (by omega)]
    exact command_loop env hj gs (commandStart version) _ hok (fun _ => rfl) hf (Nat.le_refl _)
  · have k : ∀ {α : Type} (f : Settings → α) (pick : Given → Option α) (d : α), f (commandStart version).settings = d → (∀ w, pick (.file w) = none) →
        (∀ g st, (∀ w, g ≠ .file w) → f (applyGiven g st).settings = (pick g).getD (f st.settings)) → f (gs.foldl (fun st g => applyGiven g st) (commandStart version)).settings = (last pick gs).getD d := by
      intro α f pick d hd hp h
      rw [fold_last (fun st => f st.settings) pick (apply_field (fun st => f st.settings) pick h hp (fun _ _ => rfl) (fun _ _ => rfl)), hd]
    have fixed : ∀ {α : Type} (f : Settings → α) (d : α), f (commandStart version).settings = d → (∀ g st, (∀ w, g ≠ .file w) → f (applyGiven g st).settings = f st.settings) →
        f (gs.foldl (fun st g => applyGiven g st) (commandStart version)).settings = d := by
      intro α f d hd h
      have := k f (fun _ => none) d hd (fun _ => rfl) h
      rwa [show last (fun _ => (none : Option α)) gs = none by unfold last; simp] at this
    have e : ∀ s t : Settings, s.cipher = t.cipher → s.mode = t.mode → s.nonce = t.nonce → s.authenticate = t.authenticate → s.id = t.id → s.keyHash = t.keyHash → s.keyLength = t.keyLength → s.entropy = t.entropy →
        s.level = t.level → s.hmac = t.hmac → s.chunksize = t.chunksize → s.version = t.version → s = t := by
      rintro ⟨⟩ ⟨⟩ h1 h2 h3 h4 h5 h6 h7 h8 h9 h10 h11 h12
      simp only [] at h1 h2 h3 h4 h5 h6 h7 h8 h9 h10 h11 h12
      simp [*]
    apply e
    · exact k (·.cipher) Given.cipher? 2 rfl (fun _ => rfl) (by rintro (_ | _) st h <;> first | rfl | exact absurd rfl (h _))
    · exact k (·.mode) Given.mode? 3 rfl (fun _ => rfl) (by rintro (_ | _) st h <;> first | rfl | exact absurd rfl (h _))
    · exact fixed (·.nonce) [] rfl (by rintro (_ | _) st h <;> first | rfl | exact absurd rfl (h _))
    · exact k (·.authenticate) Given.authenticate? 1 rfl (fun _ => rfl) (by rintro (_ | _) st h <;> first | rfl | exact absurd rfl (h _))
    · exact fixed (·.id) [] rfl (by rintro (_ | _) st h <;> first | rfl | exact absurd rfl (h _))
    · exact k (·.keyHash) Given.key? 7 rfl (fun _ => rfl) (by rintro (_ | _) st h <;> first | rfl | exact absurd rfl (h _))
    · exact fixed (·.keyLength) 512 rfl (by rintro (_ | _) st h <;> first | rfl | exact absurd rfl (h _))
    · exact k (·.entropy) Given.entropy? 3 rfl (fun _ => rfl) (by rintro (_ | _) st h <;> first | rfl | exact absurd rfl (h _))
    · exact k (·.level) Given.level? 6 rfl (fun _ => rfl) (by rintro (_ | _) st h <;> first | rfl | exact absurd rfl (h _))
    · exact k (·.hmac) Given.hmac? 7 rfl (fun _ => rfl) (by rintro (_ | _) st h <;> first | rfl | exact absurd rfl (h _))
    · exact k (·.chunksize) Given.chunksize? 262144 rfl (fun _ => rfl) (by rintro (_ | _) st h <;> first | rfl | exact absurd rfl (h _))
    · exact fixed (·.version) version rfl (by rintro (_ | _) st h <;> first | rfl | exact absurd rfl (h _))
  · have := fold_last? (·.keyring) Given.keyring? (apply_field? (·.keyring) Given.keyring? (by rintro (_ | _) st h <;> first | rfl | exact absurd rfl (h _)) (fun _ => rfl) (fun _ _ => rfl) (fun _ _ => rfl)) gs (commandStart version)
    rw [this]; exact Option.or_none
  · have := fold_last? (·.passphrase) Given.passphrase? (apply_field? (·.passphrase) Given.passphrase? (by rintro (_ | _) st h <;> first | rfl | exact absurd rfl (h _)) (fun _ => rfl) (fun _ _ => rfl) (fun _ _ => rfl)) gs (commandStart version)
    rw [this]; exact Option.or_none
  · have := fold_last? (·.properties) Given.properties? (apply_field? (·.properties) Given.properties? (by rintro (_ | _) st h <;> first | rfl | exact absurd rfl (h _)) (fun _ => rfl) (fun _ _ => rfl) (fun _ _ => rfl)) gs (commandStart version)
    rw [this]; exact Option.or_none
  · have := fold_last (·.compress) (fun _ => none) (apply_field (·.compress) (fun _ => none) (by rintro (_ | _) st h <;> first | rfl | exact absurd rfl (h _)) (fun _ => rfl) (fun _ _ => rfl) (fun _ _ => rfl)) gs (commandStart version)
    rw [this, show last (fun _ => (none : Option Bool)) gs = none by unfold last; simp]; rfl
  · exact fold_last (·.verbose) Given.verbose? (apply_field (·.verbose) Given.verbose? (by rintro (_ | _) st h <;> first | rfl | exact absurd rfl (h _)) (fun _ => rfl) (fun _ _ => rfl) (fun _ _ => rfl)) gs (commandStart version)
  · exact fold_last (·.trueRandom) Given.trueRandom? (apply_field (·.trueRandom) Given.trueRandom? (by rintro (_ | _) st h <;> first | rfl | exact absurd rfl (h _)) (fun _ => rfl) (fun _ _ => rfl) (fun _ _ => rfl)) gs (commandStart version)

/-- **C154 is false** of the length of the key: whatever length is asked for, the key has no bits at all. (`strtod` finds no number in `-key-length`.) -/
theorem C154_keylength_violated (env : CommandEnv) (hj : env.junk.length = 4096) (hn : env.number (ascText "-key-length") = none) (version w : List Byte) (gs : List Given) (hok : ∀ g ∈ gs, g.OK env) (p c : List Byte)
    (hf : gs.filterMap Given.file? = [p, c]) : ∃ st, encipherCommand env version (ascText "-key-length" :: w :: gs.flatMap Given.words) = .ok (.run st p c) ∧ st.settings.keyLength = 0 := by
  have hs : commandStep env (ascText "-key-length") (w :: gs.flatMap Given.words) (commandStart version) =
      (asUnsigned 32 ((env.number (ascText "-key-length")).getD 0)).bind fun n => .ok (.go { commandStart version with settings := { (commandStart version).settings with keyLength := BitVec.ofNat 32 n } } (gs.flatMap Given.words)) := rfl
  rw [hn] at hs
  have hs : commandStep env (ascText "-key-length") (w :: gs.flatMap Given.words) (commandStart version) =
      .ok (.go { commandStart version with settings := { (commandStart version).settings with keyLength := 0 } } (gs.flatMap Given.words)) := hs
  refine ⟨gs.foldl (fun st g => applyGiven g st) { commandStart version with settings := { (commandStart version).settings with keyLength := 0 } }, ?_, ?_⟩
  · rw [encipherCommand, if_neg (by simp), if_neg (by simp), List.length_cons, commandLoop, hs, Res.ok_bind]
    exact command_loop env hj gs _ _ hok (fun _ => rfl) hf (by rw [List.length_cons]; omega)
  · have := fold_last (fun st => st.settings.keyLength) (fun _ => none) (apply_field (fun st => st.settings.keyLength) (fun _ => none) (by rintro (_ | _) st h <;> first | rfl | exact absurd rfl (h _)) (fun _ => rfl) (fun _ _ => rfl) (fun _ _ => rfl)) gs
      { commandStart version with settings := { (commandStart version).settings with keyLength := 0 } }
    rw [this, show last (fun _ => (none : Option (BitVec 32))) gs = none by unfold last; simp]; rfl

/-- **C154 is false** of `-random`, which the usage describes: with whatever hash, it is an unrecognized option. -/
theorem C154_random_violated (env : CommandEnv) (version w : List Byte) (args : List (List Byte)) : encipherCommand env version (ascText "-random" :: w :: args) = .ok .failed := by
  rw [encipherCommand, if_neg (by simp), if_neg (by simp), List.length_cons, commandLoop, show commandStep env (ascText "-random") (w :: args) (commandStart version) = .ok .failed from rfl]
  rfl

/-- **C154 is false** of `-(de)compress`, which the usage describes: it is taken for the name of the file to read, and the file to read for the file to write. With the file to write behind it there
are too many files. -/
theorem C154_compress_violated (env : CommandEnv) (hj : env.junk.length = 4096) (version : List Byte) (p c : List Byte) (hp : (Given.file p).OK env) (hc : (Given.file c).OK env) :
    encipherCommand env version [ascText "-(de)compress", p, c] = .ok .usage ∧ ∃ st, encipherCommand env version [ascText "-(de)compress", p] = .ok (.run st (ascText "-(de)compress") p) ∧ st.compress = true := by
  constructor
  · have h1 : commandStep env (ascText "-(de)compress") [p, c] (commandStart version) = .ok (.go { commandStart version with plain := some (ascText "-(de)compress") } [p, c]) := rfl
    have h2 : ∀ st : CommandState, commandStep env p [c] { st with plain := some (ascText "-(de)compress"), cipherName := none } =
        .ok (.go { st with plain := some (ascText "-(de)compress"), cipherName := some p } [c]) := by
      intro st; rw [commandStep, if_pos (file_no_option hp)]; rfl
    have h3 : ∀ st : CommandState, commandStep env c [] { st with plain := some (ascText "-(de)compress"), cipherName := some p } = .ok .usage := by
      intro st; rw [commandStep, if_pos (file_no_option hc)]; rfl
    rw [encipherCommand, if_neg (by simp), if_neg (by simp)]
    show commandLoop env 3 _ _ = _
    rw [commandLoop, h1, Res.ok_bind]
    simp only []
    rw [commandLoop, show commandStep env p [c] { commandStart version with plain := some (ascText "-(de)compress") } = _ from h2 (commandStart version), Res.ok_bind]
    simp only []
    rw [commandLoop, h3 (commandStart version), Res.ok_bind]
  · obtain ⟨st, h1, -, -, -, -, h2, -⟩ := C154_options_partial env hj version [.file (ascText "-(de)compress"), .file p] (by
      intro g hg
      rcases List.mem_cons.1 hg with rfl | hg
      · intro c d r e
        have : (asc '-', asc '(') = (c, d) := by
          have e1 := congrArg List.head? e
          have e2 := congrArg (fun l => (List.drop 1 l).head?) e
          rw [show (ascText "-(de)compress").head? = some (asc '-') from rfl] at e1
          replace e2 : some (asc '(') = some d := e2
          injection e1 with e1
          injection e2 with e2
          rw [e1, e2]
        injection this with _ h
        exact .inr (h ▸ by decide)
      · rw [List.mem_singleton.1 hg]; exact hp) _ _ rfl
    exact ⟨st, h1, h2⟩

/-- **C154 is false** of chunk sizes below nothing: the conversion to `size_t` is undefined; nothing asks whether the argument makes sense. -/
theorem C154_chunksize_violated (env : CommandEnv) (version w p c : List Byte) (h : env.number w = some (-1)) : encipherCommand env version [ascText "-chunksize", w, p, c] = .ub := by
  have h1 : commandStep env (ascText "-chunksize") [w, p, c] (commandStart version) = match env.number w with
      | none => .ok .failed
      | some v => (asUnsigned 64 v).bind fun n => .ok (.go { commandStart version with settings := { (commandStart version).settings with chunksize := n } } [p, c]) := rfl
  rw [h] at h1
  rw [encipherCommand, if_neg (by simp), if_neg (by simp)]
  show commandLoop env 4 _ _ = _
  rw [commandLoop, h1]
  rfl

/-- Numbers of the example: `1024` and `-1`. -/
def commandEnvExample : CommandEnv := ⟨List.replicate 4096 7, fun w => if w = ascText "1024" then some 1024 else if w = ascText "-1" then some (-1) else none, fun _ => true⟩

theorem names_word {table : List OptionInfo} {w : List Byte} {v : BitVec 64} {c : Byte} {r : List Byte} (e : w = c :: r)
    (h : (w.all fun c => isSpaceC c == false && c != asc ',' && c != 0) = true ∧ (c ≠ asc '!' ∧ c ≠ asc '-' ∧ c ≠ asc '+') ∧ w.length < 2049 ∧ (Spec.Opt.named cLocaleLower table w).map (·.type) = some v) : Names table w v := by
  refine ⟨fun x hx => ?_, ⟨c, r, e, h.2.1⟩, h.2.2.1, h.2.2.2⟩
  have := List.all_eq_true.1 h.1 x hx
  simp at this
  exact ⟨this.1.1, this.1.2, this.2⟩

theorem file_word {env : CommandEnv} {w : List Byte} {c : Byte} {r : List Byte} (e : w = c :: r) (h : c ≠ asc '-' ∧ c ≠ asc '+') : (Given.file w).OK env := by
  intro a b t e'
  rw [e] at e'
  injection e' with e1 _
  exact .inl (e1 ▸ h)

/-- `encipher -cipher serpent -passphrase pw +verbose -cipher Twofish -chunksize 1024 plain.txt -mode CBC cipher.wiz` -/
def givenExample : List Given :=
  [.cipher (ascText "serpent") 4, .passphrase (ascText "pw"), .verbose false, .cipher (ascText "Twofish") 5, .chunksize (ascText "1024") 1024, .file (ascText "plain.txt"), .mode (ascText "CBC") 1,
    .file (ascText "cipher.wiz")]

theorem command_example : (∀ g ∈ givenExample, g.OK commandEnvExample) ∧
    ∃ st, encipherCommand commandEnvExample [] ((["-cipher", "serpent", "-passphrase", "pw", "+verbose", "-cipher", "Twofish", "-chunksize", "1024", "plain.txt", "-mode", "CBC", "cipher.wiz"]).map ascText) =
      .ok (.run st (ascText "plain.txt") (ascText "cipher.wiz")) ∧ st.settings.cipher = 5 ∧ st.settings.mode = 1 ∧ st.settings.chunksize = 1024 ∧ st.passphrase = some (ascText "pw") ∧ st.settings.hmac = 7 := by
  have hok : ∀ g ∈ givenExample, g.OK commandEnvExample := by
    intro g hg
    unfold givenExample at hg
    simp only [List.mem_cons, List.not_mem_nil, or_false] at hg
    rcases hg with rfl | rfl | rfl | rfl | rfl | rfl | rfl | rfl
    · exact names_word rfl (by decide +kernel)
    · trivial
    · trivial
    · exact names_word rfl (by decide +kernel)
    · exact ⟨by decide +kernel, by decide⟩
    · exact file_word rfl (by decide)
    · exact names_word rfl (by decide +kernel)
    · exact file_word rfl (by decide)
  obtain ⟨st, h1, h2, -, h3, -⟩ := C154_options_partial commandEnvExample List.length_replicate [] givenExample hok _ _ rfl
  refine ⟨hok, st, h1, ?_, ?_, ?_, h3, ?_⟩ <;> rw [h2] <;> rfl

/-- A length of the key, and a chunk size of -1, in that world. -/
theorem command_example2 : commandEnvExample.number (ascText "-key-length") = none ∧ commandEnvExample.number (ascText "-1") = some (-1) ∧ (Given.file (ascText "plain.txt")).OK commandEnvExample :=
  ⟨by decide +kernel, by decide +kernel, file_word rfl (by decide)⟩

end Wizard.Props
