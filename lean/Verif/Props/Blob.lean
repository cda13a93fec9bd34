import Verif.Model.Blob
import Verif.Spec.Blob
import Verif.Lemmas.Mem
/-! C58, C92-C94: blob streams. -/
namespace Wizard.Props
open Wizard Wizard.Spec.Blob

/-- The number of bytes a call asks for. -/
def asked : BlobReq → Nat
  | .read n => n
  | .byte => 1
  | .chunk n => n

/-- The blob reads `c` and is at `p`. -/
def At (c : List Byte) (p : Nat) (e : Bool) (b : Blob) : Prop :=
  p ≤ c.length ∧ (b = .file ⟨c, p, e⟩ ∨ ∃ x q, b = .map c true c.length x q p e)

theorem getcs_spec (c : List Byte) : ∀ (n p : Nat) (e : Bool), p ≤ c.length →
    getcs n ⟨c, p, e⟩ = ((c.drop p).take n, ⟨c, p + min n (c.length - p), e || decide (c.length - p < n)⟩) := by
  intro n
  induction n with
  | zero => intro p e hp; simp [getcs]
  | succ n ih =>
    intro p e hp
    rw [getcs]
    unfold Stdio.getc
    by_cases h : p < c.length
    · rw [List.getElem?_eq_getElem h]
      simp only []
      rw [ih (p + 1) e (by omega), List.drop_eq_getElem_cons h, List.take_succ_cons]
      simp only [Prod.mk.injEq, Stdio.mk.injEq, true_and]
      refine ⟨by omega, ?_⟩
      congr 1
      apply decide_eq_decide.2
      omega
    · rw [List.getElem?_eq_none (by simp only []; omega)]
      simp only []
      rw [List.drop_eq_nil_of_le (by omega)]
      simp only [List.take_nil, Prod.mk.injEq, Stdio.mk.injEq, true_and]
      refine ⟨by omega, ?_⟩
      have : decide (c.length - p < n + 1) = true := by simp; omega
      rw [this, Bool.or_true]

theorem map_spec {c : List Byte} {p : Nat} (hp : p ≤ c.length) (e : Bool) (x q n : Nat) (hn : n ≠ 0) :
    ∃ b', readMap c true c.length x q p e n = .ok ((c.drop p).take n, b') ∧ At c (p + min n (c.length - p)) (e || decide (c.length - p < n)) b' := by
  unfold readMap
  by_cases h : p ≥ c.length
  · rw [if_pos h, List.drop_eq_nil_of_le h, List.take_nil]
    refine ⟨_, rfl, by omega, .inr ⟨x, q, ?_⟩⟩
    have h1 : decide (c.length - p < n) = true := by simp; omega
    rw [h1, Bool.or_true]
    congr 1
    omega
  · rw [if_neg h, if_neg (by simp)]
    simp only []
    rw [rdN_ok (by omega), Res.ok_bind]
    refine ⟨_, ?_, by omega, .inr ⟨x, q, rfl⟩⟩
    congr 2
    · rw [← List.take_take, List.take_of_length_le (i := c.length - p) (by simp)]
    · congr 2
      apply decide_eq_decide.2
      omega

theorem read_spec {c : List Byte} {p : Nat} {e : Bool} {b : Blob} (h : At c p e b) (n : Nat) :
    ∃ b', readBlob b n = .ok ((c.drop p).take n, b') ∧ At c (p + min n (c.length - p)) (e || decide (c.length - p < n)) b' := by
  obtain ⟨hp, hb⟩ := h
  unfold readBlob
  by_cases hn : n = 0
  · subst hn
    rw [if_pos rfl]
    simp only [List.take_zero, Nat.zero_min, Nat.add_zero, Nat.not_lt_zero, decide_false, Bool.or_false]
    exact ⟨b, rfl, hp, hb⟩
  · rw [if_neg hn]
    rcases hb with rfl | ⟨x, q, rfl⟩
    · simp only []
      split
      · rw [getcs_spec c n p e hp]
        exact ⟨_, rfl, by omega, .inl rfl⟩
      · refine ⟨_, rfl, by omega, .inl ?_⟩
        unfold Stdio.fread
        simp only [List.length_take, List.length_drop, Blob.file.injEq, Stdio.mk.injEq, true_and]
        congr 1
        apply decide_eq_decide.2
        omega
    · exact map_spec hp e x q n hn

theorem byte_spec {c : List Byte} {p : Nat} {e : Bool} {b : Blob} (h : At c p e b) :
    ∃ b', (do let r ← readBlobByte b; Res.ok (r.1.toList, r.2)) = .ok ((c.drop p).take 1, b') ∧ At c (p + min 1 (c.length - p)) (e || decide (c.length - p < 1)) b' := by
  have key : ∀ r : Res (List Byte × Blob), (∃ b', r = .ok ((c.drop p).take 1, b') ∧ At c (p + min 1 (c.length - p)) (e || decide (c.length - p < 1)) b') →
      ∃ b', (do
        let r ← (do
          let r ← r
          match r.1 with
          | [c] => .ok (some c, r.2)
          | _ => .ok (none, r.2) : Res (Option Byte × Blob))
        Res.ok (r.1.toList, r.2)) = .ok ((c.drop p).take 1, b') ∧ At c (p + min 1 (c.length - p)) (e || decide (c.length - p < 1)) b' := by
    rintro _ ⟨b', rfl, h2⟩
    refine ⟨b', ?_, h2⟩
    cases (c.drop p) with
    | nil => rfl
    | cons a l => rfl
  obtain ⟨hp, hb⟩ := h
  unfold readBlobByte
  rcases hb with rfl | ⟨x, q, rfl⟩
  · exact key _ (read_spec ⟨hp, .inl rfl⟩ 1)
  · exact key _ (map_spec hp e x q 1 (by omega))

theorem chunk_spec {c : List Byte} {p : Nat} {e : Bool} {b : Blob} (h : At c p e b) (n fuel : Nat) (hf : 3 ≤ fuel) :
    ∃ b', readBlobChunk false fuel b n = .ok ((c.drop p).take n, b') ∧ At c (p + min n (c.length - p)) (e || decide (c.length - p < n)) b' := by
  obtain ⟨hp, hb⟩ := h
  rcases hb with rfl | ⟨x, q, rfl⟩
  · unfold readBlobChunk
    simp only []
    obtain ⟨fuel, rfl⟩ : ∃ k, fuel = k + 3 := ⟨fuel - 3, by omega⟩
    rw [chunkLoop]
    by_cases hn : n = 0
    · subst hn
      rw [if_neg (by simp)]
      simp only [List.take_zero, Nat.zero_min, Nat.add_zero, Nat.not_lt_zero, decide_false, Bool.or_false]
      exact ⟨_, rfl, hp, .inl rfl⟩
    · rw [if_pos (by simp; omega)]
      obtain ⟨b1, h1, a1⟩ := read_spec (⟨hp, .inl rfl⟩ : At c p e (.file ⟨c, p, e⟩)) n
      simp only [List.length_nil, Nat.sub_zero, h1, Res.ok_bind, Bool.false_eq_true, if_false, List.nil_append]
      by_cases hz : ((c.drop p).take n).length = 0
      · rw [if_pos hz]
        refine ⟨b1, ?_, a1⟩
        rw [List.length_eq_zero_iff.1 hz]
      · rw [if_neg hz, chunkLoop]
        by_cases hlt : ((c.drop p).take n).length < n
        · rw [if_pos hlt]
          obtain ⟨b2, h2, a2⟩ := read_spec a1 (n - ((c.drop p).take n).length)
          rw [h2, Res.ok_bind]
          simp only [List.length_take, List.length_drop] at hlt
          have hpe : p + min n (c.length - p) = c.length := by omega
          rw [hpe, List.drop_length]
          simp only [List.take_nil, List.length_nil, if_true]
          refine ⟨b2, rfl, ?_⟩
          rw [hpe] at a2
          have e1 : decide (c.length - p < n) = true := by simp; omega
          rw [e1, Bool.or_true, Bool.true_or] at a2
          rw [e1, Bool.or_true]
          have : c.length + min (n - ((c.drop p).take n).length) (c.length - c.length) = c.length := by omega
          rw [this] at a2
          exact a2
        · rw [if_neg hlt]
          exact ⟨b1, rfl, a1⟩
  · exact read_spec ⟨hp, .inr ⟨x, q, rfl⟩⟩ n

theorem req_spec {c : List Byte} {p : Nat} {e : Bool} {b : Blob} (h : At c p e b) (fuel : Nat) (hf : 3 ≤ fuel) (r : BlobReq) :
    ∃ b', blobReq false fuel b r = .ok ((c.drop p).take (asked r), b') ∧ At c (p + min (asked r) (c.length - p)) (e || decide (c.length - p < asked r)) b' := by
  cases r with
  | read n => exact read_spec h n
  | byte => exact byte_spec h
  | chunk n => exact chunk_spec h n fuel hf

theorem reads_spec {c : List Byte} (fuel : Nat) (hf : 3 ≤ fuel) : ∀ (rs : List BlobReq) (p : Nat) (e : Bool) (b : Blob), At c p e b →
    ∃ b' p' e', blobReads false fuel b rs = .ok (served (c.drop p) (rs.map asked), b') ∧ At c p' e' b' ∧ p' = p + ((served (c.drop p) (rs.map asked)).flatten).length ∧
      (e' = true ↔ e = true ∨ denied (c.drop p) (rs.map asked)) := by
  intro rs
  induction rs with
  | nil => intro p e b h; exact ⟨b, p, e, rfl, h, by simp [served], by simp [denied]⟩
  | cons r rs ih =>
    intro p e b h
    obtain ⟨b1, h1, a1⟩ := req_spec h fuel hf r
    obtain ⟨b2, p2, e2, h2, a2, hp2, he2⟩ := ih _ _ b1 a1
    have hd : (c.drop p).drop (asked r) = c.drop (p + min (asked r) (c.length - p)) := by
      rw [List.drop_drop]
      by_cases hl : asked r ≤ c.length - p
      · rw [Nat.min_eq_left hl]
      · rw [List.drop_eq_nil_of_le (by omega), List.drop_eq_nil_of_le (by omega)]
    refine ⟨b2, p2, e2, ?_, a2, ?_, ?_⟩
    · rw [blobReads, h1, Res.ok_bind, h2, Res.ok_bind, List.map_cons, served, hd]
    · rw [hp2, List.map_cons, served, hd, List.flatten_cons, List.length_append, List.length_take, List.length_drop]
      omega
    · rw [he2, List.map_cons, denied, hd, List.length_drop]
      simp only [Bool.or_eq_true, decide_eq_true_eq]
      exact or_assoc

/-- **C58** A file that is opened for reading, mapped or not, and read by any sequence of `ReadBlob`, `ReadBlobByte` and `ReadBlobChunk`:
every call delivers the next bytes, as many as it asks for or as are left; `TellBlob` is the number of bytes delivered; and `EOFBlob` is
true exactly when one of the calls could not be satisfied in full.  (`errno` is not `EINTR`, see `C94_stale_violated`.) -/
theorem C58_reads (content : List Byte) (mapped : Bool) (fuel : Nat) (hf : 3 ≤ fuel) (rs : List BlobReq) :
    ∃ b, blobReads false fuel (openRead content mapped) rs = .ok (served content (rs.map asked), b) ∧
      tellBlob b = ((served content (rs.map asked)).flatten).length ∧ (eofBlob b = true ↔ denied content (rs.map asked)) := by
  have h : At content 0 false (openRead content mapped) := by
    refine ⟨Nat.zero_le _, ?_⟩
    unfold openRead
    simp only []
    split
    · exact .inr ⟨_, _, rfl⟩
    · left
      unfold Stdio.fread Stdio.fseek
      simp
  obtain ⟨b, p, e, h1, h2, h3, h4⟩ := reads_spec fuel hf rs 0 false _ h
  rw [List.drop_zero] at h1 h3 h4
  refine ⟨b, h1, ?_, ?_⟩
  · rcases h2.2 with rfl | ⟨x, q, rfl⟩ <;> simp [tellBlob, h3]
  · rcases h2.2 with rfl | ⟨x, q, rfl⟩ <;> simpa [eofBlob] using h4

theorem served_flatten : ∀ (ns : List Nat) (c : List Byte), (served c ns).flatten = c.take ns.sum := by
  intro ns
  induction ns with
  | nil => intro c; simp [served]
  | cons n ns ih =>
    intro c
    rw [served, List.flatten_cons, ih, List.sum_cons, List.take_add]

/-- **C58** The pieces joined are the beginning of the file. -/
theorem C58_in_order (content : List Byte) (mapped : Bool) (fuel : Nat) (hf : 3 ≤ fuel) (rs : List BlobReq) :
    ∃ outs b, blobReads false fuel (openRead content mapped) rs = .ok (outs, b) ∧ outs.flatten = content.take (rs.map asked).sum := by
  obtain ⟨b, h1, _⟩ := C58_reads content mapped fuel hf rs
  exact ⟨_, b, h1, served_flatten _ _⟩

/-! ### Writing -/

/-- The bytes of a call that writes. -/
def dataOf : BlobPut → List Byte
  | .write data => data
  | .byte c => [c]
  | .string s => s

theorem fwrite_end (c d : List Byte) (e : Bool) : Stdio.fwrite ⟨c, c.length, e⟩ d = ⟨c ++ d, (c ++ d).length, e⟩ := by
  unfold Stdio.fwrite
  simp

theorem putcs_end : ∀ (d c : List Byte) (e : Bool), putcs d ⟨c, c.length, e⟩ = ⟨c ++ d, (c ++ d).length, e⟩ := by
  intro d
  induction d with
  | nil => intro c e; simp [putcs]
  | cons x d ih =>
    intro c e
    rw [putcs, fwrite_end, ih]
    simp

theorem write_end (c d : List Byte) (e : Bool) : writeBlob (.file ⟨c, c.length, e⟩) d = .ok (d.length, .file ⟨c ++ d, (c ++ d).length, e⟩) := by
  unfold writeBlob
  by_cases h : d = []
  · subst h; simp
  · rw [if_neg h]
    simp only []
    rw [fwrite_end, putcs_end, ite_self]

theorem put_end (c : List Byte) (e : Bool) (w : BlobPut) : blobPut (.file ⟨c, c.length, e⟩) w = .ok ((dataOf w).length, .file ⟨c ++ dataOf w, (c ++ dataOf w).length, e⟩) := by
  cases w with
  | write d => exact write_end c d e
  | byte b => exact write_end c [b] e
  | string s => exact write_end c s e

theorem puts_end : ∀ (ws : List BlobPut) (c : List Byte) (e : Bool), blobPuts (.file ⟨c, c.length, e⟩) ws =
    .ok (ws.map (fun w => (dataOf w).length), .file ⟨c ++ (ws.map dataOf).flatten, (c ++ (ws.map dataOf).flatten).length, e⟩) := by
  intro ws
  induction ws with
  | nil => intro c e; simp [blobPuts]
  | cons w ws ih =>
    intro c e
    rw [blobPuts, put_end, Res.ok_bind, ih, Res.ok_bind]
    simp

/-- **C92** A file that is opened for writing and written by any sequence of `WriteBlob`, `WriteBlobByte` and `WriteBlobString`: every call
reports that it has written all its bytes, and the file is the bytes of the calls in order. -/
theorem C92_writes_partial (ws : List BlobPut) :
    ∃ f, blobPuts openWrite ws = .ok (ws.map (fun w => (dataOf w).length), .file f) ∧ f.content = (ws.map dataOf).flatten ∧
      tellBlob (.file f) = ((ws.map dataOf).flatten).length := by
  have := puts_end ws [] false
  exact ⟨_, this, by simp, by simp [tellBlob]⟩

/-- **C92** is false once `SetBlobExtent` is called: on a file that is at least as large as the extent it reports success, but has put a NUL
over the last byte within the extent and has moved to the start of the file, so the next bytes written replace the first ones instead of
following the last one.  (The result of `fseek`, 0, is taken for the position.) -/
theorem C92_extent_violated (ws : List BlobPut) (x : Nat) (hx : 0 < x) (hl : x ≤ ((ws.map dataOf).flatten).length) (d : List Byte) (hd : 4 < d.length) :
    ∃ counts b b' f, blobPuts openWrite ws = .ok (counts, b) ∧ setBlobExtent b x = (true, b') ∧ writeBlob b' d = .ok (d.length, .file f) ∧
      f.content = d ++ (((ws.map dataOf).flatten).set (x - 1) 0).drop d.length := by
  have h := puts_end ws [] false
  rw [List.nil_append] at h
  generalize (ws.map dataOf).flatten = c at h hl
  have h2 : setBlobExtent (.file ⟨c, c.length, false⟩) x = (true, .file ⟨c.set (x - 1) 0, 0, false⟩) := by
    unfold setBlobExtent
    simp only []
    rw [if_neg (by omega)]
    unfold Stdio.fseek Stdio.fwrite
    simp only [List.length_singleton]
    rw [show x - 1 - c.length = 0 by omega, List.replicate_zero, List.append_nil, List.set_eq_take_append_cons_drop, if_pos (by omega)]
    simp
  have h3 : writeBlob (.file ⟨c.set (x - 1) 0, 0, false⟩) d = .ok (d.length, .file (Stdio.fwrite ⟨c.set (x - 1) 0, 0, false⟩ d)) := by
    unfold writeBlob
    rw [if_neg (by rintro rfl; simp at hd)]
    simp only []
    rw [if_neg (by omega)]
  refine ⟨_, _, _, _, h, h2, h3, ?_⟩
  unfold Stdio.fwrite
  simp

/-- **C93** is false: `SetBlobExtent` on a large file that is read refuses, but has unmapped the data by then; the next call that reads
accesses memory that is no longer there. -/
theorem C93_unmapped_violated (content : List Byte) (hl : maxBufferExtent < content.length) (x n : Nat) (hn : n ≠ 0) :
    (setBlobExtent (openRead content true) x).1 = false ∧ readBlob (setBlobExtent (openRead content true) x).2 n = .ub := by
  have h : openRead content true = .map content true content.length content.length maxBlobExtent 0 false := by
    unfold openRead
    simp only []
    rw [if_pos ⟨hl, by trivial⟩]
  rw [h]
  refine ⟨rfl, ?_⟩
  unfold setBlobExtent readBlob readMap
  simp only []
  rw [if_neg hn, if_neg (by omega), if_pos (by simp)]

/-- **C93** is false: writing a byte to a large file that is read does not fail but writes to memory that is mapped for reading; to the
same file below the limit, or when the map is not granted, `fwrite` is called. -/
theorem C93_readonly_violated (content : List Byte) (hl : maxBufferExtent < content.length) (c : Byte) : blobPut (openRead content true) (.byte c) = .ub := by
  have h : openRead content true = .map content true content.length content.length maxBlobExtent 0 false := by
    unfold openRead
    simp only []
    rw [if_pos ⟨hl, by trivial⟩]
  rw [h]
  unfold blobPut writeBlobStream
  have : maxBufferExtent = 8192 := rfl
  simp only [List.length_singleton]
  rw [if_neg (by omega), if_neg (by simp)]

/-! ### Chunks and interrupted calls -/

/-- **C94** (partial) `ReadBlobChunk` returns what it was asked for if there is as much, whatever `errno` is; otherwise only if `errno` is
not `EINTR` (`C58_reads`). -/
theorem C94_enough_partial (eintr : Bool) (c : List Byte) (p n fuel : Nat) (e : Bool) (b : Blob) (h : At c p e b) (hn : n ≤ c.length - p) (hf : 2 ≤ fuel) :
    ∃ b', readBlobChunk eintr fuel b n = .ok ((c.drop p).take n, b') ∧ At c (p + n) e b' := by
  obtain ⟨b1, h1, a1⟩ := read_spec h n
  rw [Nat.min_eq_left hn, decide_eq_false (by omega), Bool.or_false] at a1
  obtain ⟨hp, hb⟩ := h
  rcases hb with rfl | ⟨x, q, rfl⟩
  · unfold readBlobChunk
    simp only []
    obtain ⟨fuel, rfl⟩ : ∃ k, fuel = k + 2 := ⟨fuel - 2, by omega⟩
    rw [chunkLoop]
    by_cases h0 : n = 0
    · subst h0
      rw [if_neg (by simp)]
      exact ⟨_, rfl, hp, .inl rfl⟩
    · rw [if_pos (by simp; omega)]
      simp only [List.length_nil, Nat.sub_zero, h1, Res.ok_bind, List.nil_append]
      have hl : ((c.drop p).take n).length = n := by simp; omega
      rw [if_neg (by omega), chunkLoop, if_neg (by omega)]
      exact ⟨b1, rfl, a1⟩
  · exact ⟨b1, h1, a1⟩

theorem chunk_stale (c : List Byte) (n : Nat) : ∀ (fuel p : Nat) (e : Bool) (got : List Byte), p ≤ c.length → got.length + (c.length - p) < n →
    chunkLoop true fuel (.file ⟨c, p, e⟩) n got = .fatal := by
  intro fuel
  induction fuel with
  | zero => intro p e got _ _; rw [chunkLoop]
  | succ fuel ih =>
    intro p e got hp hn
    rw [chunkLoop, if_pos (by omega)]
    obtain ⟨b1, h1, a1, hb⟩ := read_spec (⟨hp, .inl rfl⟩ : At c p e (.file ⟨c, p, e⟩)) (n - got.length)
    have hb1 : ∃ e', b1 = .file ⟨c, p + min (n - got.length) (c.length - p), e'⟩ := by
      rcases hb with rfl | ⟨x, q, rfl⟩
      · exact ⟨_, rfl⟩
      · exfalso
        unfold readBlob at h1
        split at h1
        · simp at h1
        · simp only [] at h1
          split at h1 <;> simp at h1
    obtain ⟨e', rfl⟩ := hb1
    rw [h1, Res.ok_bind]
    simp only [if_true]
    split
    · rename_i hz
      exact ih _ _ _ (by omega) (by simp only [List.length_take, List.length_drop] at hz; omega)
    · exact ih _ _ _ (by omega) (by rw [List.length_append, List.length_take, List.length_drop]; omega)

/-- **C94** is false when `errno` is a stale `EINTR`: reading at the end of a file does not change `errno`, so the loop goes on for ever
when a chunk is larger than what is left. -/
theorem C94_stale_violated (content : List Byte) (n fuel : Nat) (hn : content.length < n) :
    readBlobChunk true fuel (openRead content false) n = .fatal := by
  have h : openRead content false = .file ⟨content, 0, false⟩ := by
    unfold openRead Stdio.fread Stdio.fseek
    simp
  rw [h]
  exact chunk_stale content n fuel 0 false [] (Nat.zero_le _) (by simpa using hn)

/-! ### Examples -/

/-- The bytes of a literal. -/
def say (s : String) : List Byte := s.toList.map asc

example : blobReads false 3 (openRead (say "wizards") false) [.read 2, .byte, .chunk 9, .byte] =
    .ok ([say "wi", say "z", say "ards", []], .file ⟨say "wizards", 7, true⟩) := by decide
example : denied (say "wizards") [2, 1, 9, 1] := by simp [denied, say]
example : ∃ ws : List BlobPut, ws = [.write (say "wizard"), .byte (asc 's')] ∧
    blobPuts openWrite ws = .ok ([6, 1], .file ⟨say "wizards", 7, false⟩) := ⟨_, rfl, by decide⟩
/-- The hypotheses of `C92_extent_violated` are met by writing "wizards", an extent of 7 and "staff". -/
example : 0 < 7 ∧ 7 ≤ (([BlobPut.write (say "wizards")].map dataOf).flatten).length ∧ 4 < (say "staff").length := by decide
example : (setBlobExtent (.file ⟨say "wizards", 7, false⟩) 7).2 = .file ⟨say "wizard" ++ [0], 0, false⟩ := by decide
example : maxBufferExtent < (List.replicate 8193 (0 : Byte)).length := by rw [List.length_replicate]; decide

end Wizard.Props
