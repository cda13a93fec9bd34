import Verif.Spec.TempFile
/-! C146 to C148: temporary files. -/
namespace Wizard.Props
open Wizard Wizard.Spec.TempFile

theorem tries_fresh {template : List Byte} {files : List (List Byte)} {tries : List TmpTry} {name : List Byte} (h : tmpTries template files tries = some name) : name ∉ files := by
  induction tries with
  | nil => cases h
  | cons t ts ih =>
    rw [tmpTries] at h
    simp only [] at h
    split at h
    · rename_i made
      cases h
      cases hm : t.made with
      | none => rw [hm] at made; cases made
      | some six =>
        rw [hm, Option.bind_some] at made
        split at made
        · cases made
        · cases made; assumption
    · split at h
      · cases h
      · split at h
        · exact ih h
        · cases h; assumption

theorem mem_unlink {x name : List Byte} {files : List (List Byte)} : x ∈ unlinkFile name files ↔ x ∈ files ∧ x ≠ name := by
  rw [unlinkFile, List.mem_filter, bne_iff_ne]

theorem addTemp_new {fold : Byte → Byte} {name : List Byte} {s : TmpState} (h : ∀ k ∈ s.temps, ¬ Twins fold k name) : addTemp fold name s = { s with temps := name :: s.temps } := by
  have : s.temps.find? (fun k => k.map fold == name.map fold) = none := List.find?_eq_none.2 fun k hk => by
    simp only [beq_iff_eq]; exact h k hk
  rw [addTemp, this]

/-- **C146** (partial): `AcquireUniqueFileResource` returns a file that was not there before, and changes no other file: if its name does not differ from that
of another temporary file in the case of letters only. -/
theorem C146_fresh_partial (fold : Byte → Byte) (env : TmpEnv) (limit : Option Nat) (path : List Byte) (tries : List TmpTry) (s s' : TmpState) (name : List Byte)
    (h : acquireUnique fold env limit path tries s = (some name, s')) (ht : ∀ k ∈ s.temps, ¬ Twins fold k name) : name ∉ s.files ∧ s'.files = name :: s.files ∧ s'.temps = name :: s.temps ∧ s'.used = s.used + 1 := by
  unfold acquireUnique at h
  split at h
  · cases h
  · rename_i n hn
    simp only [] at h
    split at h
    · simp only [Prod.mk.injEq, Option.some.injEq] at h
      obtain ⟨rfl, rfl⟩ := h
      rw [addTemp_new (by exact ht)]
      exact ⟨tries_fresh hn, rfl, rfl, rfl⟩
    · cases h

theorem acquire_none {fold : Byte → Byte} {env : TmpEnv} {limit : Option Nat} {path : List Byte} {tries : List TmpTry} {s s' : TmpState}
    (h : acquireUnique fold env limit path tries s = (none, s')) (hl : ∀ l, limit = some l → s.used + 1 < l) : s' = s := by
  unfold acquireUnique at h
  split at h
  · cases h; rfl
  · simp only [] at h
    rw [if_pos (by cases limit with | none => rfl | some l => simpa using hl l rfl)] at h
    cases h

/-- What is true of all states of a program that uses temporary files. -/
structure TmpInv (fold : Byte → Byte) (others : List (List Byte)) (s : TmpState) : Prop where
  files : ∀ f, f ∈ s.files ↔ f ∈ others ∨ f ∈ s.temps
  disjoint : ∀ f ∈ s.temps, f ∉ others
  twinless : s.temps.Pairwise fun a b => ¬ Twins fold a b

theorem find_self {fold : Byte → Byte} {temps : List (List Byte)} (h : temps.Pairwise fun a b => ¬ Twins fold a b) {name : List Byte} (hn : name ∈ temps) :
    temps.find? (fun k => k.map fold == name.map fold) = some name := by
  induction temps with
  | nil => cases hn
  | cons k ks ih =>
    rw [List.pairwise_cons] at h
    rcases List.mem_cons.1 hn with rfl | hn
    · rw [List.find?_cons_of_pos (by simp)]
    · rw [List.find?_cons_of_neg (by rw [beq_iff_eq]; exact h.1 name hn), ih h.2 hn]

theorem twinless_nodup {fold : Byte → Byte} {temps : List (List Byte)} (h : temps.Pairwise fun a b => ¬ Twins fold a b) : temps.Nodup :=
  h.imp fun hn e => hn (by rw [e]; rfl)

theorem relinquish_own {fold : Byte → Byte} {others : List (List Byte)} {s : TmpState} (hi : TmpInv fold others s) {name : List Byte} (hn : name ∈ s.temps) (trash : Bool) :
    relinquishUnique fold name trash s = (!trash, { s with files := unlinkFile name s.files, temps := s.temps.erase name }) := by
  have e : unlinkFile name (unlinkFile name s.files) = unlinkFile name s.files := by
    rw [unlinkFile, unlinkFile, List.filter_filter]
    congr 1
    funext x
    simp
  have hm : name ∉ unlinkFile name s.files := fun h => (mem_unlink.1 h).2 rfl
  rw [relinquishUnique, find_self hi.twinless hn]
  cases trash with
  | false => rfl
  | true => simp [e, hm]

theorem uses_inv {fold : Byte → Byte} {env : TmpEnv} {limit : Option Nat} {others : List (List Byte)} {s : TmpState} (h : Uses fold env limit others s) : TmpInv fold others s := by
  induction h with
  | start => exact ⟨fun f => by simp, (by intro f hf; cases hf), .nil⟩
  | @acquired s path tries name s' _ ha ht ih =>
    obtain ⟨h1, h2, h3, _⟩ := C146_fresh_partial _ _ _ _ _ _ _ _ ha ht
    refine ⟨fun f => ?_, fun f hf ho => ?_, ?_⟩
    · rw [h2, h3, List.mem_cons, List.mem_cons, ih.files]
      exact ⟨fun h => h.elim (fun e => .inr (.inl e)) fun h => h.imp id .inr, fun h => h.elim (fun h => .inr (.inl h)) fun h => h.imp id .inr⟩
    · rw [h3] at hf
      rcases List.mem_cons.1 hf with rfl | hf
      · exact h1 ((ih.files _).2 (.inl ho))
      · exact ih.disjoint f hf ho
    · rw [h3]
      exact .cons (fun k hk e => ht k hk e.symm) ih.twinless
  | failed _ ha hl ih => rw [acquire_none ha hl]; exact ih
  | @relinquished s name trash _ hn ih =>
    rw [relinquish_own ih hn]
    have nd := twinless_nodup ih.twinless
    refine ⟨fun f => ?_, fun f hf => ih.disjoint f (List.mem_of_mem_erase hf), ih.twinless.sublist List.erase_sublist⟩
    simp only [mem_unlink, ih.files, nd.mem_erase_iff]
    constructor
    · rintro ⟨h | h, hne⟩
      · exact .inl h
      · exact .inr ⟨hne, h⟩
    · rintro (h | ⟨hne, h⟩)
      · exact ⟨.inl h, fun e => ih.disjoint f (by rw [e]; exact hn) h⟩
      · exact ⟨.inr h, hne⟩

/-- **C147** (partial): `RelinquishUniqueFileResource` removes the temporary file it is given, and no other file. -/
theorem C147_removes_partial (fold : Byte → Byte) (env : TmpEnv) (limit : Option Nat) (others : List (List Byte)) (s : TmpState) (h : Uses fold env limit others s) (name : List Byte) (hn : name ∈ s.temps) (trash : Bool) :
    ∀ f, f ∈ (relinquishUnique fold name trash s).2.files ↔ f ∈ s.files ∧ f ≠ name := by
  intro f
  rw [relinquish_own (uses_inv h) hn]
  exact mem_unlink

/-- **C147 is false**: asked to remove a temporary file, `RelinquishUniqueFileResource` always returns False, although it does remove it. -/
theorem C147_trash_violated (fold : Byte → Byte) (env : TmpEnv) (limit : Option Nat) (others : List (List Byte)) (s : TmpState) (h : Uses fold env limit others s) (name : List Byte) (hn : name ∈ s.temps) :
    (relinquishUnique fold name true s).1 = false ∧ name ∈ s.files ∧ name ∉ (relinquishUnique fold name true s).2.files := by
  refine ⟨by rw [relinquish_own (uses_inv h) hn]; rfl, ((uses_inv h).files name).2 (.inr hn), ?_⟩
  rw [C147_removes_partial fold env limit others s h name hn]
  exact fun h => h.2 rfl

/-- **C147 is false**: asked to keep a temporary file, `RelinquishUniqueFileResource` always removes it, and returns True. -/
theorem C147_keep_violated (fold : Byte → Byte) (env : TmpEnv) (limit : Option Nat) (others : List (List Byte)) (s : TmpState) (h : Uses fold env limit others s) (name : List Byte) (hn : name ∈ s.temps) :
    (relinquishUnique fold name false s).1 = true ∧ name ∈ s.files ∧ name ∉ (relinquishUnique fold name false s).2.files := by
  refine ⟨by rw [relinquish_own (uses_inv h) hn]; rfl, ((uses_inv h).files name).2 (.inr hn), ?_⟩
  rw [C147_removes_partial fold env limit others s h name hn]
  exact fun h => h.2 rfl

/-- **C147** (violated): relinquishing a path that is not that of a temporary file, but differs from one in the case of letters only, removes the temporary
file. -/
theorem C147_twin_violated (fold : Byte → Byte) (env : TmpEnv) (limit : Option Nat) (others : List (List Byte)) (s : TmpState) (h : Uses fold env limit others s) (name path : List Byte) (hn : name ∈ s.temps)
    (ht : Twins fold name path) (trash : Bool) : name ∉ (relinquishUnique fold path trash s).2.files := by
  have hf : s.temps.find? (fun k => k.map fold == path.map fold) = some name := by
    rw [← show name.map fold = path.map fold from ht]; exact find_self (uses_inv h).twinless hn
  rw [relinquishUnique, hf]
  cases trash with
  | false => exact fun h => (mem_unlink.1 h).2 rfl
  | true => exact fun h => (mem_unlink.1 (mem_unlink.1 h).1).2 rfl

theorem mem_unlinkAll {x : List Byte} {temps : List (List Byte)} : ∀ {files : List (List Byte)}, x ∈ temps.foldl (fun fs k => unlinkFile k fs) files ↔ x ∈ files ∧ x ∉ temps := by
  induction temps with
  | nil => intro files; simp
  | cons k ks ih => intro files; rw [List.foldl_cons, ih, mem_unlink]; simp [and_assoc]

/-- **C148** (partial): when the program ends, or a signal ends it, at any time, the files are those that were there before it acquired temporary files: all
temporary files are removed, and no other. -/
theorem C148_removed_partial (fold : Byte → Byte) (env : TmpEnv) (limit : Option Nat) (others : List (List Byte)) (s : TmpState) (h : Uses fold env limit others s) :
    (∀ f, f ∈ (tmpTerminus s).files ↔ f ∈ others) ∧ ∀ f, f ∈ (tmpAsyncTerminus s).files ↔ f ∈ others := by
  have hi := uses_inv h
  have key : ∀ f, f ∈ s.temps.foldl (fun fs k => unlinkFile k fs) s.files ↔ f ∈ others := by
    intro f
    rw [mem_unlinkAll, hi.files]
    exact ⟨fun h => h.1.resolve_right h.2, fun h => ⟨.inl h, fun ht => hi.disjoint f ht h⟩⟩
  exact ⟨key, key⟩

/-- **C148 is false** once the limit of files is reached: `AcquireUniqueFileResource` returns -1 but leaves the file it created, and nothing ever removes it.
(It tries to remove the path of the directory instead.) -/
theorem C148_limit_violated (fold : Byte → Byte) (env : TmpEnv) (l : Nat) (path : List Byte) (others : List (List Byte)) (tries : List TmpTry) (s : TmpState) (h : Uses fold env (some l) others s) (name : List Byte)
    (hl : l ≤ s.used + 1) (hn : tmpTries (getPathTemplate env path).1 s.files tries = some name) (hp : name ≠ path) :
    ∃ s', acquireUnique fold env (some l) path tries s = (none, s') ∧ name ∈ (tmpTerminus s').files ∧ name ∈ (tmpAsyncTerminus s').files ∧ name ∉ others := by
  have hi := uses_inv h
  have hf := tries_fresh hn
  refine ⟨_, by rw [acquireUnique, hn]; simp only []; rw [if_neg (by simp; omega)], ?_, ?_, fun ho => hf ((hi.files _).2 (.inl ho))⟩
  all_goals
    refine mem_unlinkAll.2 ⟨mem_unlink.2 ⟨List.mem_cons_self .., hp⟩, fun ht => hf ((hi.files _).2 (.inr ht))⟩

/-- **C146** (violated): relinquishing a temporary file does not give back its place: `used` goes up with every file acquired and never down, and when it
reaches the limit no temporary file can be acquired, although there are none. -/
theorem C146_exhausted_violated (fold : Byte → Byte) (env : TmpEnv) (l : Nat) (s : TmpState) :
    (∀ path trash, (relinquishUnique fold path trash s).2.used = s.used) ∧ (s.used + 1 = l → ∀ path tries, (acquireUnique fold env (some l) path tries s).1 = none) := by
  constructor
  · intro path trash
    unfold relinquishUnique
    cases s.temps.find? (fun k => k.map fold == path.map fold) <;> cases trash <;> rfl
  · intro hl path tries
    unfold acquireUnique
    split
    · rfl
    · simp only []
      rw [if_neg (by simp; omega)]

/-- **C146** (violated): if a new temporary file gets a name that differs from that of another in the case of letters only, the other file is removed while it
is in use. -/
theorem C146_twin_violated (fold : Byte → Byte) (env : TmpEnv) (limit : Option Nat) (others : List (List Byte)) (path : List Byte) (tries : List TmpTry) (s s' : TmpState) (h : Uses fold env limit others s) (name k : List Byte)
    (ha : acquireUnique fold env limit path tries s = (some name, s')) (hk : k ∈ s.temps) (ht : Twins fold k name) : k ∈ s.files ∧ k ∉ s'.files := by
  have hi := uses_inv h
  refine ⟨(hi.files k).2 (.inr hk), ?_⟩
  unfold acquireUnique at ha
  split at ha
  · cases ha
  · rename_i n hn
    simp only [] at ha
    split at ha
    · simp only [Prod.mk.injEq, Option.some.injEq] at ha
      obtain ⟨rfl, rfl⟩ := ha
      rw [addTemp]
      have hf : s.temps.find? (fun j => j.map fold == n.map fold) = some k := by
        rw [← show k.map fold = n.map fold from ht]; exact find_self hi.twinless hk
      simp only [hf]
      exact fun h => (mem_unlink.1 h).2 rfl
    · cases ha

/-- Letters that are put into names have no slashes. -/
theorem portable_slash (c : Byte) : portable c ≠ 47 := by
  have : ∀ n < 64, portableNames.getD n 0 ≠ (47 : Byte) := by decide +kernel
  exact this _ (Nat.mod_lt _ (by decide))

/-- What a system gives: six random bytes and twelve, and six letters that are no slashes. -/
def FairTry (t : TmpTry) : Prop := t.key6.length = 6 ∧ t.key12.length = 12 ∧ ∀ six, t.made = some six → six.length = 6 ∧ (47 : Byte) ∉ six

theorem fill_end {base xs letters : List Byte} (hx : xs.length = 12) : fillName (base ++ xs) letters = base ++ (letters ++ xs.drop letters.length) := by
  rw [fillName, List.length_append, hx, Nat.add_sub_cancel, List.take_left' rfl, List.append_assoc]
  congr 2
  rw [List.drop_append, List.drop_eq_nil_of_le (by omega), List.nil_append]
  congr 1
  omega

/-- The path of a file that was created is the template with twelve other bytes at its end, none of them a slash. -/
theorem tries_name {base xs : List Byte} {files : List (List Byte)} {tries : List TmpTry} {name : List Byte} (hf : ∀ t ∈ tries, FairTry t) (hx : xs.length = 12) (hs : (47 : Byte) ∉ xs)
    (h : tmpTries (base ++ xs) files tries = some name) : ∃ letters : List Byte, letters.length = 12 ∧ (47 : Byte) ∉ letters ∧ name = base ++ letters := by
  induction tries with
  | nil => cases h
  | cons t ts ih =>
    obtain ⟨h6, h12, hm⟩ := hf t (List.mem_cons_self ..)
    have l6 : (t.key6.map portable).length = 6 := by rw [List.length_map, h6]
    have l12 : (t.key12.map portable).length = 12 := by rw [List.length_map, h12]
    have nk : ∀ k : List Byte, (47 : Byte) ∉ k.map portable := by
      intro k hk
      obtain ⟨c, _, e⟩ := List.mem_map.1 hk
      exact portable_slash c e
    have ns : (47 : Byte) ∉ t.key6.map portable ++ xs.drop 6 := by
      intro hk
      rcases List.mem_append.1 hk with hk | hk
      · exact nk _ hk
      · exact hs (List.mem_of_mem_drop hk)
    have ls : (t.key6.map portable ++ xs.drop 6).length = 12 := by rw [List.length_append, List.length_drop, l6, hx]
    rw [tmpTries] at h
    simp only [fill_end hx, l6] at h
    split at h
    · rename_i made
      cases h
      cases hmade : t.made with
      | none => rw [hmade] at made; cases made
      | some six =>
        rw [hmade, Option.bind_some] at made
        split at made
        · cases made
        · cases made
          refine ⟨t.key6.map portable ++ six, by rw [List.length_append, l6, (hm six hmade).1], fun hk => ?_, ?_⟩
          · rcases List.mem_append.1 hk with hk | hk
            · exact nk _ hk
            · exact (hm six hmade).2 hk
          · rw [← List.append_assoc, List.take_append_of_le_length (by simp [hx, l6])] 
            rw [List.take_of_length_le (by simp [hx, l6]), List.append_assoc]
    · rw [fill_end ls, l12, List.drop_eq_nil_of_le (by omega), List.append_nil] at h
      split at h
      · cases h
      · split at h
        · exact ih (fun t ht => hf t (List.mem_cons_of_mem _ ht)) h
        · cases h
          exact ⟨_, l12, nk _, rfl⟩

theorem acquire_tries {fold : Byte → Byte} {env : TmpEnv} {limit : Option Nat} {path : List Byte} {tries : List TmpTry} {s s' : TmpState} {name : List Byte}
    (h : acquireUnique fold env limit path tries s = (some name, s')) : tmpTries (getPathTemplate env path).1 s.files tries = some name := by
  unfold acquireUnique at h
  split at h
  · cases h
  · rename_i n hn
    simp only [] at h
    split at h
    · simp only [Prod.mk.injEq, Option.some.injEq] at h
      rw [hn, h.1]
    · cases h

theorem crosses_slash : (47 : Byte) ∉ List.replicate 12 (asc 'X') := by decide +kernel

/-- **C146** (partial): a temporary file is made in the directory that was asked for, or in the default directory if none was: if it is a directory, and its
path is not too long. -/
theorem C146_directory_partial (fold : Byte → Byte) (env : TmpEnv) (limit : Option Nat) (path dir : List Byte) (tries : List TmpTry) (s s' : TmpState) (name : List Byte)
    (hf : ∀ t ∈ tries, FairTry t) (hp : (47 : Byte) ∉ env.pid) (hd : (if path ≠ [] then some path else env.defaultDir) = some dir) (hi : env.isDir dir = true) (hl : dir.length + env.pid.length ≤ 4075) (hl' : dir.length ≤ 4071)
    (h : acquireUnique fold env limit path tries s = (some name, s')) : InDirectory dir name := by
  have ht := acquire_tries h
  have hw : (47 : Byte) ∉ ascText "wizard-" := by decide +kernel
  have hlen : (ascText "wizard-").length = 7 := by decide +kernel
  have hne : ∀ letters : List Byte, letters.length = 12 → (47 : Byte) ∉ letters → (ascText "wizard-" ++ env.pid ++ letters) ≠ [] ∧ (47 : Byte) ∉ ascText "wizard-" ++ env.pid ++ letters := by
    intro letters l12 nl
    refine ⟨fun e => ?_, ?_⟩
    · have := congrArg List.length e; simp [l12] at this
    · simp only [List.mem_append]
      rintro ((hk | hk) | hk)
      · exact hw hk
      · exact hp hk
      · exact nl hk
  rw [getPathTemplate, hd] at ht
  simp only [] at ht
  rw [if_neg (by omega), if_neg (by rw [hi]; decide)] at ht
  split at ht
  · rename_i hs
    rw [List.take_of_length_le (by simp [tmpBase, hlen]; omega)] at ht
    rw [tmpBase, ← List.append_assoc] at ht
    obtain ⟨letters, l12, nl, rfl⟩ := tries_name hf List.length_replicate crosses_slash ht
    exact ⟨ascText "wizard-" ++ env.pid ++ letters, (hne letters l12 nl).1, (hne letters l12 nl).2, .inr ⟨hs, by rw [List.append_assoc]⟩⟩
  · rw [List.take_of_length_le (by simp [tmpBase, hlen]; omega)] at ht
    rw [tmpBase, ← List.cons_append, ← List.append_assoc] at ht
    obtain ⟨letters, l12, nl, rfl⟩ := tries_name hf List.length_replicate crosses_slash ht
    exact ⟨ascText "wizard-" ++ env.pid ++ letters, (hne letters l12 nl).1, (hne letters l12 nl).2, .inl (by rw [List.append_assoc]; rfl)⟩

/-- **C146** (violated): if what was asked for is no directory, or its path has more than 4071 bytes, the file is silently made in the current working
directory: its path has no slash. -/
theorem C146_directory_violated (fold : Byte → Byte) (env : TmpEnv) (limit : Option Nat) (path : List Byte) (tries : List TmpTry) (s s' : TmpState) (name : List Byte)
    (hf : ∀ t ∈ tries, FairTry t) (hp : (47 : Byte) ∉ env.pid) (hl : env.pid.length ≤ 4000) (hd : path ≠ []) (hi : env.isDir path = false ∨ 4071 < path.length)
    (h : acquireUnique fold env limit path tries s = (some name, s')) : (47 : Byte) ∉ name := by
  have ht := acquire_tries h
  have hw : (47 : Byte) ∉ ascText "wizard-" := by decide +kernel
  have hlen : (ascText "wizard-").length = 7 := by decide +kernel
  have e : (getPathTemplate env path).1 = tmpBase env := by
    rw [getPathTemplate, if_pos hd]
    simp only []
    have e' : (tmpBase env).take 4095 = tmpBase env := List.take_of_length_le (by simp [tmpBase, hlen]; omega)
    split
    · exact e'
    · split
      · exact e'
      · rename_i h1 h2
        rcases hi with hi | hi
        · exact absurd hi h2
        · omega
  rw [e, tmpBase] at ht
  obtain ⟨letters, _, nl, rfl⟩ := tries_name hf List.length_replicate crosses_slash ht
  simp only [List.mem_append]
  rintro ((hk | hk) | hk)
  · exact hw hk
  · exact hp hk
  · exact nl hk

/-- A process, a directory and random bytes. -/
def tmpEnvExample : TmpEnv := ⟨none, fun p => p == ascText "/tmp", ascText "42"⟩

/-- A try with the random bytes `n`, in which `mkstemp` fails. -/
def tmpTryExample (n : Byte) : TmpTry := ⟨List.replicate 6 n, none, List.replicate 12 n, false⟩

/-- What is asked for, what is made, and a second file. -/
theorem tmp_example : (acquireUnique cLocaleLower tmpEnvExample none (ascText "/tmp") [tmpTryExample 0] ⟨[], [], 0⟩).1 = some (ascText "/tmp/wizard-42AAAAAAAAAAAA") ∧
    (acquireUnique cLocaleLower tmpEnvExample none (ascText "/temp") [tmpTryExample 1] ⟨[], [], 0⟩).1 = some (ascText "wizard-42BBBBBBBBBBBB") ∧
    (acquireUnique cLocaleLower tmpEnvExample none (ascText "/tmp") [tmpTryExample 26] ⟨[], [], 0⟩).1 = some (ascText "/tmp/wizard-42aaaaaaaaaaaa") := by decide +kernel

theorem tmp_fair_example : ∀ n, FairTry (tmpTryExample n) := fun n => ⟨by simp [tmpTryExample], by simp [tmpTryExample], by intro six h; cases h⟩

/-- A state with a temporary file, as `Uses` gets to, and two of twins. -/
theorem tmp_uses_example : Uses cLocaleLower tmpEnvExample (some 2) [ascText "/etc/passwd"] ⟨[ascText "/tmp/wizard-42AAAAAAAAAAAA", ascText "/etc/passwd"], [ascText "/tmp/wizard-42AAAAAAAAAAAA"], 1⟩ ∧
    Twins cLocaleLower (ascText "/tmp/wizard-42AAAAAAAAAAAA") (ascText "/tmp/wizard-42aaaaaaaaaaaa") := by
  refine ⟨?_, by unfold Twins; decide +kernel⟩
  refine Uses.acquired (path := ascText "/tmp") (tries := [tmpTryExample 0]) (name := ascText "/tmp/wizard-42AAAAAAAAAAAA") .start ?_ (by intro k hk; cases hk)
  have h1 : tmpTries (getPathTemplate tmpEnvExample (ascText "/tmp")).1 [ascText "/etc/passwd"] [tmpTryExample 0] = some (ascText "/tmp/wizard-42AAAAAAAAAAAA") := by decide +kernel
  rw [acquireUnique, h1]
  rfl

end Wizard.Props
