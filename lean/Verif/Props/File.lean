import Verif.Lemmas.File
/-! C40, C41: chunks and integers of files. -/
namespace Wizard.Props
open Wizard Wizard.Spec

/-! ### C40 -/

/-- **C40** If the file has the bytes asked for, `ReadFileChunk` returns exactly them, whatever transfers are short and however
often it is interrupted, and leaves the rest of the buffer and of the file alone. -/
theorem C40_read (f : FileIO) (n : Nat) (buf : List Byte) (hs : NoFail f.sched) (hb : n ≤ buf.length) (hn : n ≤ f.rest.length)
    (fuel : Nat) (hf : f.sched.length + n < fuel) :
    ∃ f', readFileChunk fuel f buf n = .ok (true, f.rest.take n ++ buf.drop n, f') ∧ f'.content = f.content ∧
      f'.rest = f.rest.drop n := by
  obtain ⟨f', h1, h2⟩ := readFileChunk_full (fuel := fuel) (a := f.rest.take n) (t := f.rest.drop n) (buf := buf) hs
    (List.take_append_drop ..).symm (by simp; omega) (by simp; omega)
  rw [List.length_take, Nat.min_eq_left hn] at h1
  exact ⟨f', h1, h2.content, h2.rest⟩

example : NoFail [.short 0, .intr, .short 2] ∧
    readFileChunk 20 ⟨[1, 2, 3, 4, 5, 6], 1, false, false, [.short 0, .intr, .short 2]⟩ [9, 9, 9, 9, 9] 4 =
      .ok (true, [2, 3, 4, 5, 9], ⟨[1, 2, 3, 4, 5, 6], 5, true, false, []⟩) := by
  refine ⟨?_, by decide⟩
  intro e he
  simp at he
  rcases he with rfl | rfl | rfl
  · exact .inr ⟨_, rfl⟩
  · exact .inl rfl
  · exact .inr ⟨_, rfl⟩

/-- **C40**, the end of the file: if fewer bytes are left than asked for, `errno` is not `EINTR` and nothing interrupts the
calls, `ReadFileChunk` stores all that is left and reports the failure.  Missing: that it does so when interrupted (it does
not, see below). -/
theorem C40_read_end_partial (f : FileIO) (n : Nat) (buf : List Byte) (hs : OnlyShort f.sched) (he : f.eintr = false)
    (hb : n ≤ buf.length) (hn : f.rest.length < n) (fuel : Nat) (hf : f.sched.length + n + 1 < fuel) :
    ∃ f', readFileChunk fuel f buf n = .ok (false, f.rest ++ buf.drop f.rest.length, f') ∧ f'.content = f.content ∧
      f'.rest = [] := by
  obtain ⟨f', a1, a2, a3, _⟩ := readLoop_short fuel f n 0 buf hs he (by omega) hb (by omega)
  exact ⟨f', by unfold readFileChunk; rw [a1]; simp, a2, a3⟩

example : readFileChunk 20 ⟨[1, 2, 3], 1, false, false, [.short 0]⟩ [9, 9, 9, 9, 9] 4 =
    .ok (false, [2, 3, 9, 9, 9], ⟨[1, 2, 3], 3, false, false, []⟩) := by decide

/-- **C40 is false** at the end of a file.  `ReadFileChunk` (file.c:623-628) tells the end of the file from an interruption by
`errno`, but a `read` that returns 0 does not set it.  If any earlier call in the thread left `EINTR` there, or the first call of
this chunk was interrupted, a request for more bytes than are left never returns, for every file, every request and every
schedule of short and interrupted transfers. -/
theorem C40_read_end_violated (f : FileIO) (n : Nat) (buf : List Byte) (hs : NoFail f.sched)
    (he : f.eintr = true ∨ ∃ s, f.sched = .intr :: s) (hb : n ≤ buf.length) (hn : f.rest.length < n) :
    ∀ fuel, readFileChunk fuel f buf n = .fatal := by
  intro fuel
  rcases he with he | ⟨s, he⟩
  · exact readLoop_hang fuel f n 0 buf hs he (by omega) hb
  · cases fuel with
    | zero => rfl
    | succ fuel =>
      unfold readFileChunk
      rw [readLoop, if_pos (by omega)]
      unfold sysRead
      rw [he]
      simp only [List.length_nil, if_true]
      exact readLoop_hang fuel _ n 0 buf (fun x hx => hs x (by rw [he]; exact List.mem_cons_of_mem _ hx)) rfl (by
        simpa [FileIO.rest] using hn) hb

example (fuel : Nat) : readFileChunk fuel ⟨[1, 2, 3], 1, false, false, [.intr]⟩ [9, 9, 9, 9, 9] 4 = .fatal :=
  C40_read_end_violated _ _ _ (fun e he => by simp at he; exact .inl he) (.inr ⟨[], rfl⟩) (by decide) (by decide) fuel

/-- **C40** `WriteFileChunk` writes exactly its bytes at the offset, whatever transfers are short and however often it is
interrupted. -/
theorem C40_write (f : FileIO) (data : List Byte) (hs : NoFail f.sched) (hd : f.dead = false) (hp : f.pos ≤ f.content.length)
    (fuel : Nat) (hf : f.sched.length + data.length < fuel) :
    ∃ f', writeFileChunk fuel f data = .ok (true, f') ∧ f'.pos = f.pos + data.length ∧
      f'.content = f.content.take f.pos ++ data ++ f.content.drop (f.pos + data.length) := by
  obtain ⟨f', a1, a2, a3, _⟩ := writeLoop_full fuel f data 0 hs hd hp (by omega) (by omega)
  refine ⟨f', a1, a3, ?_⟩
  rw [a2, List.drop_zero, FileIO.put, hd]
  rfl

/-- **C40** At the end of the file the bytes are appended. -/
theorem C40_append (f : FileIO) (data : List Byte) (hs : NoFail f.sched) (hd : f.dead = false) (hp : f.pos = f.content.length)
    (fuel : Nat) (hf : f.sched.length + data.length < fuel) :
    ∃ f', writeFileChunk fuel f data = .ok (true, f') ∧ f'.content = f.content ++ data := by
  obtain ⟨f', a1, _, a2⟩ := C40_write f data hs hd (by omega) fuel hf
  refine ⟨f', a1, ?_⟩
  rw [a2, hp, List.take_length, List.drop_of_length_le (by omega), List.append_nil]

example : writeFileChunk 20 ⟨[1, 2, 3], 3, false, false, [.short 0, .intr, .short 0]⟩ [7, 8, 9] =
    .ok (true, ⟨[1, 2, 3, 7, 8, 9], 6, true, false, []⟩) := by decide

/-! ### C41 -/

/-- The file reopened for reading at an offset. -/
def reopened (content : List Byte) (pos : Nat) (eintr : Bool) (s : List IOEvent) : FileIO := ⟨content, pos, eintr, false, s⟩

theorem put_rest {f : FileIO} (hp : f.pos ≤ f.content.length) (data : List Byte) (e : Bool) (s : List IOEvent) :
    (reopened (f.content.take f.pos ++ data ++ f.content.drop (f.pos + data.length)) f.pos e s).rest =
      data ++ f.content.drop (f.pos + data.length) := by
  unfold FileIO.rest reopened
  simp only []
  rw [List.append_assoc, List.drop_left' (by simp; omega)]

/-- **C41** `WriteFile16Bits` writes the value least significant byte first, and `ReadFile16Bits` at that place returns it. -/
theorem C41_16 (f : FileIO) (v old : BitVec 16) (hs : NoFail f.sched) (hd : f.dead = false) (hp : f.pos ≤ f.content.length)
    (e : Bool) (s : List IOEvent) (hr : NoFail s) (fuel : Nat) (hf : f.sched.length + 2 < fuel) (hf' : s.length + 2 < fuel) :
    ∃ f' f'', writeFile16 fuel f v = .ok (true, f') ∧
      f'.content = f.content.take f.pos ++ Hash.le 2 v.toNat ++ f.content.drop (f.pos + 2) ∧
      readFile16 fuel (reopened f'.content f.pos e s) old = .ok (true, v, f'') := by
  have hl := le_length 2 v.toNat
  obtain ⟨f', h1, _, h2⟩ := C40_write f (Hash.le 2 v.toNat) hs hd hp fuel (by omega)
  obtain ⟨f'', h3, _⟩ := readFile16_full old (f := reopened f'.content f.pos e s) hr (by rw [h2]; exact put_rest hp _ _ _) hf'
  refine ⟨f', f'', by rw [writeFile16_eq]; exact h1, by rw [h2, hl], h3⟩

/-- **C41** `WriteFile32Bits` writes the low half of the value least significant byte first, and `ReadFile32Bits` at that place
returns it; the value itself if it is below 2^32. -/
theorem C41_32 (f : FileIO) (v old : BitVec 64) (hs : NoFail f.sched) (hd : f.dead = false) (hp : f.pos ≤ f.content.length)
    (e : Bool) (s : List IOEvent) (hr : NoFail s) (fuel : Nat) (hf : f.sched.length + 4 < fuel) (hf' : s.length + 4 < fuel) :
    ∃ f' f'' w, writeFile32 fuel f v = .ok (true, f') ∧
      f'.content = f.content.take f.pos ++ Hash.le 4 v.toNat ++ f.content.drop (f.pos + 4) ∧
      readFile32 fuel (reopened f'.content f.pos e s) old = .ok (true, w, f'') ∧ w.toNat = v.toNat % 2 ^ 32 ∧
      (v.toNat < 2 ^ 32 → w = v) := by
  have hl := le_length 4 v.toNat
  obtain ⟨f', h1, _, h2⟩ := C40_write f (Hash.le 4 v.toNat) hs hd hp fuel (by omega)
  obtain ⟨f'', h3, _⟩ := readFile32_full old (f := reopened f'.content f.pos e s) hr (by rw [h2]; exact put_rest hp _ _ _) hf'
  have hw : ((v.setWidth 32).setWidth 64).toNat = v.toNat % 2 ^ 32 := by
    rw [BitVec.toNat_setWidth, BitVec.toNat_setWidth]; omega
  refine ⟨f', f'', _, by rw [writeFile32_eq]; exact h1, by rw [h2, hl], h3, hw, ?_⟩
  intro h
  exact BitVec.eq_of_toNat_eq (by rw [hw, Nat.mod_eq_of_lt h])

/-- **C41** `WriteFile64Bits` writes the value least significant byte first, and `ReadFile64Bits` at that place returns it. -/
theorem C41_64 (f : FileIO) (v old : BitVec 64) (hs : NoFail f.sched) (hd : f.dead = false) (hp : f.pos ≤ f.content.length)
    (e : Bool) (s : List IOEvent) (hr : NoFail s) (fuel : Nat) (hf : f.sched.length + 8 < fuel) (hf' : s.length + 8 < fuel) :
    ∃ f' f'', writeFile64 fuel f v = .ok (true, f') ∧
      f'.content = f.content.take f.pos ++ Hash.le 8 v.toNat ++ f.content.drop (f.pos + 8) ∧
      readFile64 fuel (reopened f'.content f.pos e s) old = .ok (true, v, f'') := by
  have hl := le_length 8 v.toNat
  obtain ⟨f', h1, _, h2⟩ := C40_write f (Hash.le 8 v.toNat) hs hd hp fuel (by omega)
  obtain ⟨f'', h3, _⟩ := readFile64_full old (f := reopened f'.content f.pos e s) hr (by rw [h2]; exact put_rest hp _ _ _) hf'
  refine ⟨f', f'', by rw [writeFile64_eq]; exact h1, by rw [h2, hl], h3⟩

/-- **C41** A truncated integer is reported, and the variable keeps its value, if no interruption is pending or happens. -/
theorem C41_truncated (f : FileIO) (hs : OnlyShort f.sched) (he : f.eintr = false) (fuel : Nat) (hf : f.sched.length + 9 < fuel) :
    (f.rest.length < 2 → ∀ old, ∃ f', readFile16 fuel f old = .ok (false, old, f')) ∧
    (f.rest.length < 4 → ∀ old, ∃ f', readFile32 fuel f old = .ok (false, old, f')) ∧
    (f.rest.length < 8 → ∀ old, ∃ f', readFile64 fuel f old = .ok (false, old, f')) := by
  refine ⟨fun h old => ?_, fun h old => ?_, fun h old => ?_⟩
  · obtain ⟨f', h1, _⟩ := readFile16_short old (⟨hs, he, rfl⟩ : Calm f f.rest) h (by omega) (fuel := fuel)
    exact ⟨f', h1⟩
  · obtain ⟨f', h1, _⟩ := readFile32_short old (⟨hs, he, rfl⟩ : Calm f f.rest) h (by omega) (fuel := fuel)
    exact ⟨f', h1⟩
  · obtain ⟨f', h1, _⟩ := readFile64_short old (⟨hs, he, rfl⟩ : Calm f f.rest) h (by omega) (fuel := fuel)
    exact ⟨f', h1⟩

/-- **C41 is false** when `errno` is a stale `EINTR`: reading a truncated integer never returns. -/
theorem C41_truncated_violated (f : FileIO) (hs : NoFail f.sched) (he : f.eintr = true) (h : f.rest.length < 4) (old : BitVec 64) :
    ∀ fuel, readFile32 fuel f old = .fatal := by
  intro fuel
  unfold readFile32
  rw [C40_read_end_violated f 4 (List.replicate 4 0) hs (.inl he) (by simp) h fuel]
  rfl

example : readFile32 20 ⟨[0x78, 0x56, 0x34, 0x12, 9], 0, false, false, [.short 1]⟩ 7 =
    .ok (true, 0x12345678, ⟨[0x78, 0x56, 0x34, 0x12, 9], 4, false, false, []⟩) ∧
    readFile32 20 ⟨[0x78, 0x56, 0x34], 0, false, false, [.short 1]⟩ 7 = .ok (false, 7, ⟨[0x78, 0x56, 0x34], 3, false, false, []⟩) := by
  decide

end Wizard.Props
