import Verif.Props.Resource
/-! C49, C50, C81: virtual memory, array allocation, default limits. -/
namespace Wizard.Props
open Wizard Wizard.Spec.Ledger

/-- **C50**: the size of an array is computed exactly or refused, for all 64-bit counts and sizes. -/
theorem C50_extent (count quantum n : Nat) (hc : count < 2 ^ 64) (hq : quantum < 2 ^ 64) :
    quantumExtent count quantum = some n ↔ count ≠ 0 ∧ count * quantum < 2 ^ 64 ∧ n = count * quantum := by
  unfold quantumExtent
  simp only []
  by_cases h0 : count = 0
  · rw [if_pos (Or.inl h0)]
    constructor
    · intro h; cases h
    · intro h; exact absurd h0 h.1
  · by_cases hw : count * quantum < 2 ^ 64
    · have e : count * quantum % 2 ^ 64 = count * quantum := Nat.mod_eq_of_lt hw
      rw [e, Nat.mul_div_cancel_left _ (Nat.pos_of_ne_zero h0), if_neg (by simp [h0])]
      constructor
      · intro h; exact ⟨h0, hw, (Option.some.inj h).symm⟩
      · intro h; rw [h.2.2]
    · have : count * quantum % 2 ^ 64 / count < quantum := by
        rw [Nat.div_lt_iff_lt_mul (Nat.pos_of_ne_zero h0), Nat.mul_comm quantum]
        have := Nat.mod_lt (count * quantum) (show 0 < 2 ^ 64 by omega)
        omega
      rw [if_pos (Or.inr (by omega))]
      constructor
      · intro h; cases h
      · intro h; exact absurd h.2.1 hw

example : quantumExtent 3 5 = some 15 ∧ quantumExtent (2 ^ 33) (2 ^ 33) = none ∧ quantumExtent (2 ^ 32 + 1) (2 ^ 32) = none := by decide

/-- **C50**: over any allocator whose blocks are as large as asked for, a block returned for an array has room for `count` times
`quantum` bytes, computed without wrap-around; new arrays, resized arrays and aligned arrays alike.  `size p` is the size of the
block at `p`. -/
theorem C50_room (size : Nat → Nat) (count quantum : Nat) (hc : count < 2 ^ 64) (hq : quantum < 2 ^ 64) :
    (∀ alloc : Nat → Nat, (∀ n, alloc n ≠ 0 → n ≤ size (alloc n)) →
      acquireQuantum alloc count quantum ≠ 0 → count * quantum ≤ size (acquireQuantum alloc count quantum)) ∧
    (∀ realloc : Nat → Nat → Nat, (∀ p n, realloc p n ≠ 0 → n ≤ size (realloc p n)) → ∀ p,
      (resizeQuantum realloc p count quantum).1 ≠ 0 → count * quantum ≤ size (resizeQuantum realloc p count quantum).1) ∧
    (∀ (memalign : Nat → Nat → Nat) (page : Nat), (∀ a n, memalign a n ≠ 0 → n ≤ size (memalign a n)) →
      acquireAligned memalign page count quantum ≠ 0 → count * quantum ≤ size (acquireAligned memalign page count quantum)) := by
  refine ⟨?_, ?_, ?_⟩
  · intro alloc ha
    unfold acquireQuantum
    cases h : quantumExtent count quantum with
    | none => intro h0; exact absurd rfl h0
    | some n =>
      have := ((C50_extent count quantum n hc hq).mp h).2.2
      intro h0
      have h1 := ha _ h0
      simp only [] at h1 ⊢
      by_cases hn : n = 0
      · omega
      · rw [if_neg hn] at h1 ⊢; omega
  · intro realloc ha p
    unfold resizeQuantum
    cases h : quantumExtent count quantum with
    | none => intro h0; exact absurd rfl h0
    | some n =>
      have := ((C50_extent count quantum n hc hq).mp h).2.2
      intro h0
      have h1 := ha _ _ h0
      simp only [] at h1 ⊢
      by_cases hn : n = 0
      · omega
      · rw [if_neg hn] at h1 ⊢; omega
  · intro memalign page ha
    unfold acquireAligned
    cases h : quantumExtent count quantum with
    | none => intro h0; exact absurd rfl h0
    | some n =>
      have := ((C50_extent count quantum n hc hq).mp h).2.2
      simp only []
      by_cases hn : n = 0 ∨ alignedExtent n cacheLine < n
      · rw [if_pos hn]; intro h0; exact absurd rfl h0
      · rw [if_neg hn]
        intro h0
        have := ha _ _ h0
        omega

-- an allocator that grants one request
example : ∃ (alloc size : Nat → Nat), (∀ n, alloc n ≠ 0 → n ≤ size (alloc n)) ∧ acquireQuantum alloc 3 5 = 4096 :=
  ⟨fun n => if n ≤ 15 then 4096 else 0, fun _ => 15, by intro n; simp only []; split <;> simp_all, by decide⟩

/-- **C50**, completeness: a request that fits is passed on to the allocator with its exact size, one that does not fit (or of no
elements) never reaches it. -/
theorem C50_refusal (alloc : Nat → Nat) (count quantum : Nat) (hc : count < 2 ^ 64) (hq : quantum < 2 ^ 64) :
    (count ≠ 0 → count * quantum < 2 ^ 64 → acquireQuantum alloc count quantum = alloc (max 1 (count * quantum))) ∧
    (count = 0 ∨ 2 ^ 64 ≤ count * quantum → acquireQuantum alloc count quantum = 0) := by
  unfold acquireQuantum
  refine ⟨?_, ?_⟩
  · intro h0 h1
    rw [(C50_extent count quantum _ hc hq).mpr ⟨h0, h1, rfl⟩]
    simp only []
    congr 1
    by_cases h : count * quantum = 0
    · rw [if_pos h, h]; rfl
    · rw [if_neg h]; omega
  · intro h
    cases he : quantumExtent count quantum with
    | none => rfl
    | some n =>
      have := (C50_extent count quantum n hc hq).mp he
      omega

theorem alignedExtent_spec {x a : Nat} (ha : 0 < a) (h : x + (a - 1) < 2 ^ 64) :
    x ≤ alignedExtent x a ∧ alignedExtent x a ≤ x + (a - 1) ∧ a ∣ alignedExtent x a := by
  unfold alignedExtent
  rw [Nat.mod_eq_of_lt h]
  have h1 := Nat.div_add_mod (x + (a - 1)) a
  have h2 := Nat.mod_lt (x + (a - 1)) ha
  rw [Nat.mul_comm] at h1
  refine ⟨by omega, by omega, Nat.dvd_mul_left ..⟩

/-- **C50**: where aligned memory is cut out of plain memory, the array lies inside the plain block with the address of the block
in the 8 bytes before it, and is aligned: for every page size, every allocator and every block that lies in the address space. -/
theorem C50_aligned_inside (alloc : Nat → Nat) (page count quantum a p : Nat) (hc : count < 2 ^ 64) (hq : quantum < 2 ^ 64)
    (hp0 : 0 < page) (hp : page < 2 ^ 62) (h : acquireAlignedPlain alloc page count quantum = some (a, p))
    (hin : ∀ n, alloc n ≠ 0 → alloc n + n < 2 ^ 64) :
    ∃ n, p = alloc n ∧ p ≠ 0 ∧ p + 8 ≤ a ∧ a + count * quantum ≤ p + n ∧ (64 ∣ a ∨ page ∣ a) := by
  unfold acquireAlignedPlain at h
  cases he : quantumExtent count quantum with
  | none => rw [he] at h; cases h
  | some size =>
    rw [he] at h
    simp only [] at h
    obtain ⟨h0, h1, h2⟩ := (C50_extent count quantum size hc hq).mp he
    by_cases h3 : size = 0 ∨ alignedExtent size cacheLine < size
    · rw [if_pos h3] at h; cases h
    · rw [if_neg h3] at h
      obtain ⟨al, hal⟩ : ∃ al, al = if page / 2 < size then page else cacheLine := ⟨_, rfl⟩
      rw [← hal] at h
      have hal0 : 0 < al ∧ al < 2 ^ 62 ∧ (al = 64 ∨ al = page) := by
        rw [hal]
        by_cases hb : page / 2 < size
        · rw [if_pos hb]; exact ⟨hp0, hp, Or.inr rfl⟩
        · rw [if_neg hb]; exact ⟨by decide, by decide, Or.inl rfl⟩
      by_cases h4 : ((size + al - 1) % 2 ^ 64 + 8) % 2 ^ 64 > size
      · rw [if_pos h4] at h
        by_cases h5 : alloc (((size + al - 1) % 2 ^ 64 + 8) % 2 ^ 64) = 0
        · rw [if_pos h5] at h; cases h
        · rw [if_neg h5] at h
          obtain ⟨n, hn⟩ : ∃ n, n = ((size + al - 1) % 2 ^ 64 + 8) % 2 ^ 64 := ⟨_, rfl⟩
          rw [← hn] at h h4 h5
          have hnn : n = size + al + 7 := by
            omega
          have hin' := hin n h5
          simp only [Option.some.injEq, Prod.mk.injEq] at h
          obtain ⟨ha, hpp⟩ := h
          obtain ⟨x1, x2, x3⟩ := alignedExtent_spec (x := alloc n + 8) (a := al) hal0.1 (by omega)
          refine ⟨n, hpp.symm, by rw [← hpp]; exact h5, by omega, by omega, ?_⟩
          rw [← ha]
          rcases hal0.2.2 with e | e
          · exact Or.inl (by rw [← e]; exact x3)
          · exact Or.inr (by rw [← e]; exact x3)
      · rw [if_neg h4] at h; cases h

example : acquireAlignedPlain (fun _ => 1000) 4096 3 5 = some (1024, 1000) ∧ (∀ n, n ≤ 4096 → 1000 + n < 2 ^ 64) :=
  ⟨by decide, by omega⟩

theorem granted_acquire {s : ResourceInfo} {t : Resource} (ht : t ≠ .area) {length : Nat} (h : Granted s t length) :
    acquireResource s t length = .ok (true, s.setUsed t (s.used t + length)) := by
  have h1 := h.nonneg
  have h2 := h.small
  rw [acquire_other ht, signed64_small (x := s.used t + length) (by omega) (by omega), if_pos]
  rcases h.limit with h3 | ⟨h3, h4⟩
  · exact Or.inl h3
  · rw [signed64_small (x := (s.limit t : Int)) (by omega) (by omega)]
    exact Or.inr h4

theorem give_back {s : ResourceInfo} {t : Resource} (ht : t ≠ .area) {length : Nat} {u : Int} (h0 : 0 ≤ u) (h1 : u < 2 ^ 63)
    (h : s.used t = u + length) : relinquishResource s t length = .ok (s.setUsed t u) := by
  rw [relinquish_other ht, h, signed64_small (x := u + length - length) (by omega) (by omega), if_neg (by omega)]
  congr 2
  omega

@[simp] theorem setUsed_used (s : ResourceInfo) (t x : Resource) (v : Int) : (s.setUsed t v).used x = if x = t then v else s.used x := rfl

@[simp] theorem setUsed_limit (s : ResourceInfo) (t : Resource) (v : Int) : (s.setUsed t v).limit = s.limit := rfl

theorem sameBooks_of {s s' : ResourceInfo} (h : s'.used .memory = s.used .memory ∧ s'.used .map = s.used .map ∧ s'.used .disk = s.used .disk) :
    SameBooks s s' := by
  intro t ht
  unfold getResource
  rcases ht with rfl | rfl | rfl
  · rw [h.1]
  · rw [h.2.1]
  · rw [h.2.2]

/-- What is left to show of an acquisition that starts from `s`. -/
def Balanced (s : ResourceInfo) (r : Res (Option MemoryInfo × ResourceInfo)) : Prop :=
  ∃ m s', r = .ok (m, s') ∧ match m with
    | none => SameBooks s s'
    | some m => ∃ s'', relinquishVirtual s' m = .ok s'' ∧ SameBooks s s''

theorem plain_balanced {s s' : ResourceInfo} (e : VirtualEnv) (length : Nat)
    (h : s'.used .memory = s.used .memory ∧ s'.used .map = s.used .map ∧ s'.used .disk = s.used .disk) : Balanced s (virtualPlain s' e length) := by
  unfold virtualPlain
  by_cases hp : e.plain = true
  · rw [if_pos hp]
    exact ⟨_, _, rfl, _, rfl, sameBooks_of h⟩
  · rw [if_neg hp]
    exact ⟨_, _, rfl, sameBooks_of h⟩

theorem file_balanced {s s' : ResourceInfo} (e : VirtualEnv) (length : Nat) (hd : Granted s .disk length) (hm : Granted s .map length)
    (hf : 0 ≤ s'.used .file ∧ s'.used .file + 1 < 2 ^ 63)
    (h1 : s'.used .memory = s.used .memory) (h2 : s'.used .map = s.used .map + length) (h3 : s'.used .disk = s.used .disk)
    (hlim : s'.limit = s.limit) : Balanced s (virtualFile s' e length) := by
  unfold virtualFile
  have hd' : Granted s' .disk length := ⟨by rw [h3]; exact hd.nonneg, by rw [h3]; exact hd.small, by rw [h3, hlim]; exact hd.limit⟩
  have hd0 := hd.nonneg
  have hd1 := hd.small
  have hm0 := hm.nonneg
  have hm1 := hm.small
  rw [granted_acquire (by decide) hd', Res.ok_bind]
  have hmf : ∃ r f, mapFile true (s'.setUsed .disk (s'.used .disk + length)) e = .ok (r, f) ∧ f.used .memory = s.used .memory ∧
      f.used .map = s.used .map + length ∧ f.used .disk = s.used .disk + length := by
    have key : ∀ v, ((s'.setUsed .disk (s'.used .disk + length)).setUsed .file v).used .memory = s.used .memory ∧
        ((s'.setUsed .disk (s'.used .disk + length)).setUsed .file v).used .map = s.used .map + length ∧
        ((s'.setUsed .disk (s'.used .disk + length)).setUsed .file v).used .disk = s.used .disk + length := by
      intro v
      refine ⟨h1, h2, ?_⟩
      show s'.used .disk + length = _
      rw [h3]
    unfold mapFile acquireUniqueFile
    by_cases ho : e.opens = true
    · simp only [if_true, if_pos ho]
      have hs1 : signed64 ((s'.setUsed .disk (s'.used .disk + length)).used .file + (1 : Nat)) = s'.used .file + 1 :=
        signed64_small (x := s'.used .file + 1) (by omega) (by omega)
      have hs2 : signed64 ((1 : Nat) : Int) = 1 := by decide
      rw [acquire_other (by decide), hs1, hs2]
      generalize hlt : (s'.setUsed .disk (s'.used .disk + length)).limit .file = lim
      by_cases hc : lim = resourceInfinity ∨ s'.used .file + 1 < signed64 lim
      · rw [if_pos hc, Res.ok_bind]
        exact ⟨_, _, rfl, key _⟩
      · rw [if_neg hc, if_neg (by omega), Res.ok_bind]
        exact ⟨_, _, rfl, key _⟩
    · simp only [if_true, if_neg ho, Res.ok_bind]
      refine ⟨_, _, rfl, h1, h2, ?_⟩
      show s'.used .disk + length = _
      rw [h3]
  obtain ⟨r, f, f1, f2, f3, f4⟩ := hmf
  simp only []
  rw [f1, Res.ok_bind]
  simp only []
  by_cases hr : r = true
  · rw [if_pos hr]
    refine ⟨_, _, rfl, (f.setUsed .map (s.used .map)).setUsed .disk (s.used .disk), ?_, sameBooks_of ⟨f2, rfl, rfl⟩⟩
    show (relinquishResource f .map length >>= fun s => relinquishResource s .disk length) = _
    rw [give_back (by decide) hm0 (by omega) f3, Res.ok_bind]
    exact give_back (s := f.setUsed .map (s.used .map)) (by decide) hd0 (by omega) f4
  · rw [if_neg hr, give_back (by decide) hd0 (by omega) f4, Res.ok_bind]
    unfold virtualUnmapped
    have f3' : (f.setUsed .disk (s.used .disk)).used .map = s.used .map + length := f3
    rw [give_back (by decide) hm0 (by omega) f3', Res.ok_bind]
    exact plain_balanced e length ⟨f2, rfl, rfl⟩

/-- **C49**, when no limit is reached: for every combination of failing allocations, mappings and file operations, an acquisition
does not abort, one that fails leaves the counters of memory, map and disk as they were, and releasing what it returned restores
them.  Missing: refusals by a limit (`C49_refused_violated`, `C49_refused_books_violated`) and the counter of files
(`C49_file_violated`). -/
theorem C49_balanced_partial (s : ResourceInfo) (e : VirtualEnv) (count quantum : Nat) (hc : count < 2 ^ 64) (hq : quantum < 2 ^ 64)
    (hm : Granted s .memory (count * quantum)) (hp : Granted s .map (count * quantum)) (hd : Granted s .disk (count * quantum))
    (hf : 0 ≤ s.used .file ∧ s.used .file + 1 < 2 ^ 63) :
    ∃ m s', acquireVirtual s e count quantum = .ok (m, s') ∧ match m with
      | none => SameBooks s s'
      | some m => ∃ s'', relinquishVirtual s' m = .ok s'' ∧ SameBooks s s'' := by
  have hm0 := hm.nonneg
  have hm1 := hm.small
  unfold acquireVirtual
  cases he : quantumExtent count quantum with
  | none => exact ⟨_, _, rfl, fun _ _ => rfl⟩
  | some length =>
    obtain ⟨_, _, hl⟩ := (C50_extent count quantum length hc hq).mp he
    rw [← hl] at hm hp hd hm1
    simp only []
    rw [granted_acquire (by decide) hm, Res.ok_bind]
    simp only [Bool.true_and]
    have hback : relinquishResource (s.setUsed .memory (s.used .memory + length)) .memory length =
        .ok ((s.setUsed .memory (s.used .memory + length)).setUsed .memory (s.used .memory)) :=
      give_back (by decide) hm0 (by omega) rfl
    by_cases ha : e.aligned = true
    · rw [if_pos ha]
      exact ⟨_, _, rfl, _, hback, sameBooks_of ⟨rfl, rfl, rfl⟩⟩
    · rw [if_neg ha]
      unfold virtualMap
      rw [hback, Res.ok_bind]
      have hp' : Granted ((s.setUsed .memory (s.used .memory + length)).setUsed .memory (s.used .memory)) .map length := ⟨hp.nonneg, hp.small, hp.limit⟩
      rw [granted_acquire (by decide) hp', Res.ok_bind]
      have hp0 := hp.nonneg
      have hp1 := hp.small
      simp only [if_true]
      by_cases hn : e.anonymous = true
      · rw [if_pos hn]
        refine ⟨_, _, rfl, (((s.setUsed .memory (s.used .memory + length)).setUsed .memory (s.used .memory)).setUsed .map (s.used .map + length)).setUsed .map (s.used .map), ?_, sameBooks_of ⟨rfl, rfl, rfl⟩⟩
        show (relinquishResource _ .map length >>= fun s => Res.ok s) = _
        rw [give_back (t := .map) (u := s.used .map) (by decide) hp0 (by omega) rfl]
        rfl
      · rw [if_neg hn]
        exact file_balanced e length hd hp hf rfl rfl rfl rfl

-- every machine without a limit reached
example : Granted initialResources .memory 4096 ∧ Granted initialResources .map 4096 ∧ Granted initialResources .disk 4096 ∧
    0 ≤ initialResources.used .file ∧ initialResources.used .file + 1 < 2 ^ 63 := by
  refine ⟨⟨by decide, by decide, by decide⟩, ⟨by decide, by decide, by decide⟩, ⟨by decide, by decide, by decide⟩, by decide, by decide⟩

theorem refused_acquire {s : ResourceInfo} {t : Resource} (ht : t ≠ .area) {length : Nat} (h : Refused s t length) :
    acquireResource s t length = .ok (false, s) := by
  have h1 := h.nonneg
  have h2 := h.small
  have h3 := h.limit
  have hinf : resourceInfinity = 2 ^ 64 - 1 := rfl
  rw [acquire_other ht, signed64_small (x := s.used t + length) (by omega) (by omega), signed64_small (x := (s.limit t : Int)) (by omega) (by omega),
    signed64_small (x := (length : Int)) (by omega) (by omega), if_neg (by omega), if_neg (by omega)]
  have : s.used t + length - length = s.used t := by omega
  rw [this, setUsed_self]

/-- **C49 is false**: when the memory limit refuses the request and less than the requested amount is in use, the process aborts:
the refused amount is given back although it was not taken (memory.c:500).  For every state of the system and of the other
counters. -/
theorem C49_refused_violated (s : ResourceInfo) (e : VirtualEnv) (length : Nat) (h : Refused s .memory length)
    (hu : s.used .memory < length) : acquireVirtual s e 1 length = .ub := by
  have h1 := h.nonneg
  have h2 := h.small
  unfold acquireVirtual
  rw [(C50_extent 1 length length (by omega) (by omega)).mpr ⟨by omega, by omega, by omega⟩]
  simp only []
  rw [refused_acquire (by decide) h, Res.ok_bind]
  simp only [Bool.false_and, Bool.false_eq_true, if_false]
  unfold virtualMap
  rw [relinquish_other (by decide), signed64_small (x := s.used .memory - length) (by omega) (by omega), if_pos (by omega)]
  rfl

/-- **C49 is false**: when the limit refuses the request while more is in use, the refused amount is given back all the same; after
the acquisition succeeds with a mapping and is released, the amount of memory in use is too small by the whole request. -/
theorem C49_refused_books_violated (s : ResourceInfo) (e : VirtualEnv) (length : Nat) (h : Refused s .memory length)
    (hu : length ≤ s.used .memory) (hp : Granted s .map length) (he : e.anonymous = true) :
    ∃ m s' s'', acquireVirtual s e 1 length = .ok (some m, s') ∧ relinquishVirtual s' m = .ok s'' ∧
      getResource s'' .memory + length = getResource s .memory := by
  have h1 := h.nonneg
  have h2 := h.small
  have hp0 := hp.nonneg
  have hp1 := hp.small
  obtain ⟨u, hu'⟩ : ∃ u : Nat, s.used .memory = u := ⟨(s.used .memory).toNat, by omega⟩
  have hb : relinquishResource s .memory length = .ok (s.setUsed .memory (s.used .memory - length)) :=
    give_back (by decide) (by omega) (by omega) (by omega)
  have hp' : Granted (s.setUsed .memory (s.used .memory - length)) .map length := ⟨hp.nonneg, hp.small, hp.limit⟩
  refine ⟨⟨false, .map, length, true⟩, (s.setUsed .memory (s.used .memory - length)).setUsed .map (s.used .map + length),
    ((s.setUsed .memory (s.used .memory - length)).setUsed .map (s.used .map + length)).setUsed .map (s.used .map), ?_, ?_, ?_⟩
  · unfold acquireVirtual
    rw [(C50_extent 1 length length (by omega) (by omega)).mpr ⟨by omega, by omega, by omega⟩]
    simp only []
    rw [refused_acquire (by decide) h, Res.ok_bind]
    simp only [Bool.false_and]
    unfold virtualMap
    simp only [Bool.false_eq_true, if_false]
    rw [hb, Res.ok_bind, granted_acquire (by decide) hp', Res.ok_bind]
    simp only [if_true, if_pos he]
    rfl
  · show (relinquishResource _ .map length >>= fun s => Res.ok s) = _
    rw [give_back (t := .map) (u := s.used .map) (by decide) hp0 (by omega) rfl]
    rfl
  · unfold getResource
    simp
    omega

-- both cases arise: a limit of 100 with 0 or 60 bytes in use and a request for 200 or 50
example : Refused (setResourceLimit initialResources .memory 100) .memory 200 ∧
    Refused ((setResourceLimit initialResources .memory 100).setUsed .memory 60) .memory 50 ∧
    Granted ((setResourceLimit initialResources .memory 100).setUsed .memory 60) .map 50 :=
  ⟨⟨by decide, by decide, by decide⟩, ⟨by decide, by decide, by decide⟩, ⟨by decide, by decide, by decide⟩⟩

/-- **C49 is false** for files: an acquisition that ends up in a temporary file counts one file, and its release does not take it
back (resource.c:843-867): after as many of them as the limit allows, no temporary file can be had. -/
theorem C49_file_violated (s : ResourceInfo) (length : Nat) (hl : 0 < length) (hm : Granted s .memory length) (hp : Granted s .map length) (hd : Granted s .disk length)
    (hf : Granted s .file 1) : ∃ m s' s'', acquireVirtual s ⟨false, false, true, true, true, true⟩ 1 length = .ok (some m, s') ∧
      relinquishVirtual s' m = .ok s'' ∧ getResource s'' .file = getResource s .file + 1 := by
  have hm0 := hm.nonneg
  have hm1 := hm.small
  have hp0 := hp.nonneg
  have hp1 := hp.small
  have hd0 := hd.nonneg
  have hd1 := hd.small
  have hf0 := hf.nonneg
  have hf1 := hf.small
  have hback : relinquishResource (s.setUsed .memory (s.used .memory + length)) .memory length =
      .ok ((s.setUsed .memory (s.used .memory + length)).setUsed .memory (s.used .memory)) :=
    give_back (by decide) hm0 (by omega) rfl
  obtain ⟨s1, hs1⟩ : ∃ s1, s1 = (s.setUsed .memory (s.used .memory + length)).setUsed .memory (s.used .memory) := ⟨_, rfl⟩
  have g1 : Granted s1 .map length := by rw [hs1]; exact ⟨hp.nonneg, hp.small, hp.limit⟩
  have g2 : Granted (s1.setUsed .map (s1.used .map + length)) .disk length := by rw [hs1]; exact ⟨hd.nonneg, hd.small, hd.limit⟩
  obtain ⟨s2, hs2⟩ : ∃ s2, s2 = (s1.setUsed .map (s1.used .map + length)).setUsed .disk ((s1.setUsed .map (s1.used .map + length)).used .disk + length) := ⟨_, rfl⟩
  have g3 : Granted s2 .file 1 := by rw [hs2, hs1]; exact ⟨hf.nonneg, hf.small, hf.limit⟩
  have e1 : s2.used .map = s.used .map + length := by rw [hs2, hs1]; rfl
  have e2 : s2.used .disk = s.used .disk + length := by rw [hs2, hs1]; rfl
  have e3 : s2.used .file = s.used .file := by rw [hs2, hs1]; rfl
  refine ⟨⟨true, .map, length, true⟩, s2.setUsed .file (s2.used .file + (1 : Nat)),
    ((s2.setUsed .file (s2.used .file + (1 : Nat))).setUsed .map (s.used .map)).setUsed .disk (s.used .disk), ?_, ?_, ?_⟩
  · unfold acquireVirtual
    rw [(C50_extent 1 length length (by omega) (by omega)).mpr ⟨by omega, by omega, by omega⟩]
    simp only []
    rw [granted_acquire (by decide) hm, Res.ok_bind]
    simp only [Bool.true_and]
    unfold virtualMap
    simp only [Bool.false_eq_true, if_false]
    rw [hback, Res.ok_bind, ← hs1, granted_acquire (by decide) g1, Res.ok_bind]
    simp only [if_true]
    unfold virtualFile
    rw [granted_acquire (by decide) g2, Res.ok_bind, ← hs2]
    unfold mapFile acquireUniqueFile
    simp only [if_true]
    rw [granted_acquire (by decide) g3, Res.ok_bind, Res.ok_bind]
    rfl
  · show (relinquishResource _ .map length >>= fun s => relinquishResource s .disk length) = _
    rw [give_back (s := s2.setUsed .file (s2.used .file + (1 : Nat))) (t := .map) (u := s.used .map) (by decide) hp0 (by omega) e1, Res.ok_bind]
    exact give_back (s := (s2.setUsed .file (s2.used .file + (1 : Nat))).setUsed .map (s.used .map)) (t := .disk) (u := s.used .disk) (by decide) hd0 (by omega) e2
  · unfold getResource
    simp [e3]
    omega

/-- **C81 is false**: the default limit of memory is the number of mebibytes of the machine, taken for bytes (resource.c:915, 922).
On every machine with pages of 4096 bytes it is at most a 2^20-th of its memory (rounded), and asking for that many bytes of
virtual memory aborts the process. -/
theorem C81_default_violated (pages files : Int) (hp : 0 < pages) (hp' : pages < 2 ^ 40) (e : VirtualEnv) (length : Nat) :
    getResourceLimit (resourceGenesis pages 4096 files) .memory * 2 ^ 20 ≤ (pages * 4096).toNat + 2 ^ 21 ∧
    (getResourceLimit (resourceGenesis pages 4096 files) .memory ≤ length → 0 < length → length < 2 ^ 63 →
      acquireVirtual (resourceGenesis pages 4096 files) e 1 length = .ub) := by
  have hd : getResourceLimit (resourceGenesis pages 4096 files) .memory = defaultMemory pages 4096 := rfl
  have hv : (defaultMemory pages 4096 : Int) = (pages + 512) / 1024 * 4 := by
    unfold defaultMemory
    rw [if_neg (by omega), Int.tdiv_eq_ediv_of_nonneg (by omega), Int.tdiv_eq_ediv_of_nonneg (by omega)]
    omega
  refine ⟨by rw [hd]; omega, ?_⟩
  intro h1 h0 h2
  rw [hd] at h1
  refine C49_refused_violated _ e length ⟨?_, ?_, ?_⟩ ?_
  · exact Int.le_refl 0
  · show (0 : Int) + length < 2 ^ 63
    omega
  · show defaultMemory pages 4096 < 2 ^ 63 ∧ ((defaultMemory pages 4096 : Nat) : Int) ≤ 0 + length
    omega
  · show (0 : Int) < length
    omega

-- a machine with 16 GiB has a default limit of 16 KiB
example : getResourceLimit (resourceGenesis 4194304 4096 1024) .memory = 16384 := by decide

end Wizard.Props
