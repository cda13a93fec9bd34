import Verif.Spec.BlobIO
import Verif.Lemmas.Res
import Verif.Spec.Xml
/-! C160 and C161: what is lost when system calls fail. -/
namespace Wizard.Props
open Wizard.Spec.BlobIO

/-- All that was taken: what has reached the file and what is in the buffer. -/
def OutAll (o : OutFile) : List Byte := o.disk ++ o.buf

theorem flush_calls (keep : Bool) : ∀ (calls : List Sys) (disk buf : List Byte) (err eintr : Bool),
    let r := flushCalls keep disk err eintr calls buf
    ((keep = true ∨ r.1 = true) → OutAll r.2 = disk ++ buf) ∧ (r.1 = true → r.2.buf = []) ∧ r.2.calls.length ≤ calls.length ∧
    (r.1 = false → r.2.calls.length < calls.length) ∧ (Sound calls → r.1 = true ∧ Sound r.2.calls) := by
  intro calls
  induction calls with
  | nil =>
    intro disk buf err eintr
    cases buf <;> simp [flushCalls, OutAll]
  | cons c calls ih =>
    intro disk buf err eintr
    cases buf with
    | nil => simp [flushCalls, OutAll]
    | cons b bs =>
      cases c with
      | took k =>
        have h := ih (disk ++ (b :: bs).take (k + 1)) ((b :: bs).drop (k + 1)) err eintr
        simp only [flushCalls, List.length_cons]
        refine ⟨fun hk => ?_, h.2.1, by have := h.2.2.1; omega, fun hf => by have := h.2.2.2.1 hf; omega, fun hs => ?_⟩
        · rw [h.1 hk, List.append_assoc, List.take_append_drop]
        · exact h.2.2.2.2 fun e he => hs e (List.mem_cons_of_mem _ he)
      | failed e =>
        simp only [flushCalls, OutAll]
        refine ⟨fun hk => ?_, nofun, by simp, fun _ => by simp, fun hs => absurd List.mem_cons_self (hs e)⟩
        rcases hk with hk | hk
        · simp [hk]
        · exact nomatch hk

theorem flush_spec (keep : Bool) (o : OutFile) :
    let r := o.fflush keep
    ((keep = true ∨ r.1 = true) → OutAll r.2 = OutAll o) ∧ (r.1 = true → r.2.buf = []) ∧ r.2.calls.length ≤ o.calls.length ∧
    (r.1 = false → r.2.calls.length < o.calls.length) ∧ (Sound o.calls → r.1 = true ∧ Sound r.2.calls) :=
  flush_calls keep o.calls o.disk o.buf o.err o.eintr

theorem putc_spec (keep : Bool) (cap : Nat) (o : OutFile) (c : Byte) :
    let r := o.putc keep cap c
    (r.1 = true → OutAll r.2 = OutAll o ++ [c]) ∧ (keep = true → r.1 = false → OutAll r.2 = OutAll o) ∧ r.2.calls.length ≤ o.calls.length ∧
    (r.1 = false → r.2.calls.length < o.calls.length) ∧ (Sound o.calls → r.1 = true ∧ Sound r.2.calls) := by
  have h := flush_spec keep o
  unfold OutFile.putc
  by_cases hl : o.buf.length < cap
  · rw [if_pos hl]
    exact ⟨fun _ => by simp [OutAll], fun _ => nofun, Nat.le_refl _, nofun, fun hs => ⟨rfl, hs⟩⟩
  · rw [if_neg hl]
    cases hr : (o.fflush keep).1 with
    | true =>
      simp only [hr, if_true]
      refine ⟨fun _ => ?_, fun _ => nofun, h.2.2.1, nofun, fun hs => ⟨trivial, (h.2.2.2.2 hs).2⟩⟩
      have := h.1 (.inr hr)
      simp only [OutAll] at this ⊢
      rw [← List.append_assoc, this]
    | false =>
      simp only [hr, Bool.false_eq_true, if_false]
      exact ⟨nofun, fun hk _ => h.1 (.inl hk), h.2.2.1, fun _ => h.2.2.2.1 hr, fun hs => absurd (h.2.2.2.2 hs).1 (by simp [hr])⟩

theorem fwrite_spec (keep : Bool) (cap : Nat) : ∀ (b : List Byte) (o : OutFile),
    let r := o.fwrite keep cap b
    r.1 ≤ b.length ∧ ((keep = true ∨ r.1 = b.length) → OutAll r.2 = OutAll o ++ b.take r.1) ∧ r.2.calls.length ≤ o.calls.length ∧
    (r.1 < b.length → r.2.calls.length < o.calls.length) ∧ (Sound o.calls → r.1 = b.length ∧ Sound r.2.calls) := by
  intro b
  induction b with
  | nil => intro o; simp [OutFile.fwrite]
  | cons c cs ih =>
    intro o
    have h := putc_spec keep cap o c
    unfold OutFile.fwrite
    cases hr : (o.putc keep cap c).1 with
    | true =>
      have t := ih (o.putc keep cap c).2
      simp only [hr, if_true, List.length_cons]
      refine ⟨by have := t.1; omega, fun hk => ?_, by have := t.2.2.1; have := h.2.2.1; omega, fun hl => ?_, fun hs => ?_⟩
      · rw [t.2.1 (hk.imp id fun h => by omega), h.1 hr]; simp
      · have := t.2.2.2.1 (by omega); have := h.2.2.1; omega
      · have := t.2.2.2.2 (h.2.2.2.2 hs).2; exact ⟨by rw [this.1], this.2⟩
    | false =>
      simp only [hr, Bool.false_eq_true, if_false]
      refine ⟨Nat.zero_le _, fun hk => ?_, h.2.2.1, fun _ => h.2.2.2.1 hr, fun hs => absurd (h.2.2.2.2 hs).1 (by simp [hr])⟩
      rcases hk with hk | hk
      · simp [h.2.1 hk hr]
      · simp at hk

theorem write_spec (keep : Bool) (cap : Nat) (o : OutFile) (b : List Byte) :
    let r := writeOut keep cap o b
    r.1 ≤ b.length ∧ ((keep = true ∨ r.1 = b.length) → OutAll r.2 = OutAll o ++ b.take r.1) ∧ r.2.calls.length ≤ o.calls.length ∧
    (r.1 < b.length → r.2.calls.length < o.calls.length) ∧ (Sound o.calls → r.1 = b.length ∧ Sound r.2.calls) := by
  unfold writeOut
  by_cases hb : b.length = 0
  · have := List.eq_nil_of_length_eq_zero hb
    subst this
    simp
  · rw [if_neg hb]; exact fwrite_spec keep cap b o

theorem out_chunk_spec (keep : Bool) (cap : Nat) (b : List Byte) : ∀ (fuel : Nat) (o : OutFile) (i : Nat), i ≤ b.length →
    b.length - i + o.calls.length < fuel → (writeChunkLoop keep cap fuel o b i).Ok fun r =>
    i ≤ r.1 ∧ r.1 ≤ b.length ∧ (keep = true → OutAll r.2 = OutAll o ++ (b.drop i).take (r.1 - i)) ∧
    (Sound o.calls → r.1 = b.length ∧ Sound r.2.calls ∧ OutAll r.2 = OutAll o ++ b.drop i) := by
  intro fuel
  induction fuel with
  | zero => intro o i _ h; omega
  | succ fuel ih =>
    intro o i hi hf
    unfold writeChunkLoop
    by_cases hl : i < b.length
    · rw [if_pos hl]
      have h := write_spec keep cap o (b.drop i)
      have hd : (b.drop i).length = b.length - i := List.length_drop
      simp only []
      by_cases hz : (writeOut keep cap o (b.drop i)).1 = 0
      · rw [if_pos hz]
        have hn : ¬ Sound o.calls := fun hs => by have := (h.2.2.2.2 hs).1; omega
        have hc := h.2.2.2.1 (by omega)
        cases he : (writeOut keep cap o (b.drop i)).2.eintr with
        | true =>
          simp only [if_true]
          obtain ⟨r, hr, q⟩ := ih (writeOut keep cap o (b.drop i)).2 i hi (by omega)
          refine ⟨r, hr, q.1, q.2.1, fun hk => ?_, fun hs => absurd hs hn⟩
          rw [q.2.2.1 hk, h.2.1 (.inl hk), hz]; simp
        | false =>
          simp only [Bool.false_eq_true, if_false]
          refine ⟨_, rfl, Nat.le_refl _, hi, fun hk => ?_, fun hs => absurd hs hn⟩
          rw [h.2.1 (.inl hk), hz]; simp
      · rw [if_neg hz]
        have h1 := h.1
        obtain ⟨r, hr, q⟩ := ih (writeOut keep cap o (b.drop i)).2 (i + (writeOut keep cap o (b.drop i)).1) (by omega)
          (by have := h.2.2.1; omega)
        refine ⟨r, hr, by have := q.1; omega, q.2.1, fun hk => ?_, fun hs => ?_⟩
        · rw [q.2.2.1 hk, h.2.1 (.inl hk), List.append_assoc, ← List.drop_drop]
          have := q.1
          rw [show r.1 - i = (writeOut keep cap o (b.drop i)).1 + (r.1 - (i + (writeOut keep cap o (b.drop i)).1)) by omega, List.take_add]
        · have hw := h.2.2.2.2 hs
          have qs := q.2.2.2 hw.2
          refine ⟨qs.1, qs.2.1, ?_⟩
          rw [qs.2.2, h.2.1 (.inr hw.1), List.append_assoc, ← List.drop_drop, List.take_append_drop]
    · rw [if_neg hl]
      have : b.drop i = [] := List.drop_eq_nil_of_le (by omega)
      exact ⟨_, rfl, Nat.le_refl _, hi, fun _ => by simp [this], fun hs => ⟨by show i = _; omega, hs, by simp [this]⟩⟩

theorem write_req (keep : Bool) (cap : Nat) (o : OutFile) (q : WriteReq) : (writeReq keep cap o q).Ok fun r =>
    (keep = true → OutAll r.2 = OutAll o ++ (given q).take r.1) ∧
    (Sound o.calls → r.1 = wanted q ∧ Sound r.2.calls ∧ OutAll r.2 = OutAll o ++ given q) ∧
    ((∀ b, q ≠ .chunk b) → r.1 = wanted q → OutAll r.2 = OutAll o ++ given q) := by
  cases q with
  | write b =>
    have h := write_spec keep cap o b
    refine ⟨_, rfl, fun hk => h.2.1 (.inl hk), fun hs => ⟨(h.2.2.2.2 hs).1, (h.2.2.2.2 hs).2, ?_⟩, fun _ hw => ?_⟩
    · have e := (h.2.2.2.2 hs).1
      rw [h.2.1 (.inr e), e, List.take_length]; rfl
    · have e : (writeOut keep cap o b).1 = b.length := hw
      rw [h.2.1 (.inr e), e, List.take_length]; rfl
  | chunk b =>
    obtain ⟨r, hr, q⟩ := out_chunk_spec keep cap b (b.length + o.calls.length + 1) o 0 (Nat.zero_le _) (by omega)
    refine ⟨r, hr, fun hk => by simpa [given] using q.2.2.1 hk, fun hs => ?_, fun hb => absurd rfl (hb b)⟩
    have := q.2.2.2 hs
    exact ⟨this.1, this.2.1, by simpa [given] using this.2.2⟩
  | sync =>
    have h := flush_spec keep o
    refine ⟨_, rfl, fun hk => by simp [h.1 (.inl hk), given], fun hs => ?_, fun _ hw => ?_⟩
    · have e := h.2.2.2.2 hs
      exact ⟨by simp [e.1, wanted, given], e.2, by simp [h.1 (.inr e.1), given]⟩
    · cases hf : (o.fflush keep).1 with
      | true => simp [h.1 (.inr hf), given]
      | false => simp [hf, wanted, given] at hw

theorem write_reqs (keep : Bool) (cap : Nat) : ∀ (reqs : List WriteReq) (o : OutFile), (writeReqs keep cap o reqs).Ok fun r =>
    (keep = true → OutAll r.2 = OutAll o ++ taken reqs r.1) ∧
    (Sound o.calls → r.1 = reqs.map wanted ∧ Sound r.2.calls ∧ OutAll r.2 = OutAll o ++ reqs.flatMap given) ∧
    (NoChunk reqs → r.1 = reqs.map wanted → OutAll r.2 = OutAll o ++ reqs.flatMap given) := by
  intro reqs
  induction reqs with
  | nil => intro o; exact ⟨_, rfl, fun _ => by simp [taken], fun hs => ⟨rfl, hs, by simp⟩, fun _ _ => by simp⟩
  | cons q reqs ih =>
    intro o
    obtain ⟨x, hx, hxk, hxs, hxw⟩ := write_req keep cap o q
    obtain ⟨y, hy, hyk, hys, hyw⟩ := ih x.2
    refine ⟨(x.1 :: y.1, y.2), ?_, fun hk => ?_, fun hs => ?_, fun hn hw => ?_⟩
    · show (writeReq keep cap o q >>= _) = _
      simp only [hx, hy, Res.ok_bind]
    · simp only [taken]; rw [hyk hk, hxk hk, List.append_assoc]
    · have a := hxs hs
      have b := hys a.2.1
      exact ⟨by simp [a.1, b.1], b.2.1, by simp [b.2.2, a.2.2]⟩
    · simp only [List.map_cons, List.cons.injEq] at hw
      have a := hxw (fun b e => hn b (e ▸ List.mem_cons_self)) hw.1
      have b := hyw (fun b e => hn b (List.mem_cons_of_mem _ e)) hw.2
      simp [a, b]

theorem close_exempt (keep closes : Bool) (o : OutFile) : closeOut keep true closes 0 o = o.fflush keep := by
  unfold closeOut
  cases hs : (o.fflush keep).1 <;> simp [← hs]

theorem close_file (keep closes : Bool) (status : Int) (o : OutFile) :
    closeOut keep false closes status o = (((o.fflush keep).2.fflush keep).1 && closes, ((o.fflush keep).2.fflush keep).2) := by
  unfold closeOut OutFile.fclose
  cases h : ((o.fflush keep).2.fflush keep).1 <;> cases closes <;> simp [h]

/-- **C160** (partial: a library that keeps what it could not write.)  Whatever the system calls do, if `CloseBlob` returns true then the
file holds the bytes that the write calls said they had taken, in order, and nothing else. -/
theorem C160_kept_partial (cap : Nat) (calls : List Sys) (reqs : List WriteReq) (exempt closes : Bool) :
    (writeReqs true cap (openOut calls) reqs).Ok fun r =>
      (closeOut true exempt closes 0 r.2).1 = true → (closeOut true exempt closes 0 r.2).2.disk = taken reqs r.1 := by
  obtain ⟨r, hr, hk, -, -⟩ := write_reqs true cap reqs (openOut calls)
  refine ⟨r, hr, ?_⟩
  have hk := hk rfl
  have h1 := flush_spec true r.2
  have h2 := flush_spec true (r.2.fflush true).2
  cases exempt with
  | true =>
    show (closeOut _ _ _ _ _).1 = true → (closeOut _ _ _ _ _).2.disk = _
    rw [close_exempt]
    intro hs
    have a := h1.1 (.inr hs)
    have b := h1.2.1 hs
    rw [hk] at a
    simp only [OutAll, b, List.append_nil, openOut, List.nil_append] at a
    exact a
  | false =>
    show (closeOut _ _ _ _ _).1 = true → (closeOut _ _ _ _ _).2.disk = _
    rw [close_file]
    intro hs
    have hs := (Bool.and_eq_true _ _ ▸ hs : _ ∧ _).1
    have a := h2.1 (.inr hs)
    have b := h2.2.1 hs
    rw [h1.1 (.inl rfl), hk] at a
    simp only [OutAll, b, List.append_nil, openOut, List.nil_append] at a
    exact a

/-- **C160** (partial: no call of `write` fails.)  Every write call takes all of its bytes, the file holds them in order, and `CloseBlob`
returns true, unless `fclose` fails to close the file. -/
theorem C160_sound_partial (keep : Bool) (cap : Nat) (calls : List Sys) (reqs : List WriteReq) (exempt closes : Bool) (h : Sound calls) :
    (writeReqs keep cap (openOut calls) reqs).Ok fun r =>
      r.1 = reqs.map wanted ∧ (closeOut keep exempt closes 0 r.2).1 = (exempt || closes) ∧
      (closeOut keep exempt closes 0 r.2).2.disk = reqs.flatMap given := by
  obtain ⟨r, hr, -, hs, -⟩ := write_reqs keep cap reqs (openOut calls)
  obtain ⟨hc, hsr, hall⟩ := hs h
  refine ⟨r, hr, hc, ?_⟩
  have h1 := flush_spec keep r.2
  have h2 := flush_spec keep (r.2.fflush keep).2
  have s1 := h1.2.2.2.2 hsr
  have s2 := h2.2.2.2.2 s1.2
  have a1 := h1.1 (.inr s1.1)
  have b1 := h1.2.1 s1.1
  have a2 := h2.1 (.inr s2.1)
  have b2 := h2.2.1 s2.1
  rw [a1] at a2
  rw [hall] at a1 a2
  simp only [OutAll, b1, b2, List.append_nil, openOut, List.nil_append] at a1 a2
  cases exempt
  · rw [close_file]; simp [s2.1, a2]
  · rw [close_exempt]; simp [s1.1, a1]

/-- **C160** (partial: streams that are not closed, and clients that do not call `WriteBlobChunk`.)  Whatever the system calls do and
whatever the library does with bytes that it could not write, if each call returned what it should and `CloseBlob` returns true, then the
file holds all bytes. -/
theorem C160_exempt_partial (keep : Bool) (cap : Nat) (calls : List Sys) (reqs : List WriteReq) (closes : Bool) (h : NoChunk reqs) :
    (writeReqs keep cap (openOut calls) reqs).Ok fun r =>
      r.1 = reqs.map wanted → (closeOut keep true closes 0 r.2).1 = true → (closeOut keep true closes 0 r.2).2.disk = reqs.flatMap given := by
  obtain ⟨r, hr, -, -, hw⟩ := write_reqs keep cap reqs (openOut calls)
  refine ⟨r, hr, fun hc => ?_⟩
  have hall := hw h hc
  have h1 := flush_spec keep r.2
  rw [close_exempt]
  intro hs
  have a := h1.1 (.inr hs)
  have b := h1.2.1 hs
  rw [hall] at a
  simp only [OutAll, b, List.append_nil, openOut, List.nil_append] at a
  exact a

/-- **C160** (violated) A library may drop the bytes that `fflush` could not write.  Then every write call takes all of its bytes, the disk
is full when `CloseBlob` flushes them, `fclose` finds nothing left to write and returns 0, and this result replaces the status: `CloseBlob`
returns true, and the file is empty.  For every text, however long the buffer, if it holds the text. -/
theorem C160_dropped_violated (cap : Nat) (b : List Byte) (h : b.length ≤ cap) (hb : b ≠ []) :
    (writeReqs false cap (openOut [.failed false]) [.write b]).Ok fun r =>
      r.1 = [b.length] ∧ (closeOut false false true 0 r.2).1 = true ∧ (closeOut false false true 0 r.2).2.disk = [] ∧
      (closeOut false true true 0 r.2).1 = false := by
  have key : ∀ (b : List Byte) (o : OutFile), o.buf.length + b.length ≤ cap →
      o.fwrite false cap b = (b.length, { o with buf := o.buf ++ b }) := by
    intro b
    induction b with
    | nil => intro o _; simp [OutFile.fwrite]
    | cons c cs ih =>
      intro o ho
      simp only [List.length_cons] at ho
      have hp : o.putc false cap c = (true, { o with buf := o.buf ++ [c] }) := by
        unfold OutFile.putc; rw [if_pos (by omega)]
      unfold OutFile.fwrite
      rw [hp]
      simp only [if_true]
      rw [ih _ (by simp; omega)]
      simp
  have hw : writeOut false cap (openOut [.failed false]) b = (b.length, ⟨[], [.failed false], b, false, false⟩) := by
    unfold writeOut
    rw [if_neg (by simpa using hb), key b _ (by simpa [openOut] using h)]
    simp [openOut]
  refine ⟨([b.length], ⟨[], [.failed false], b, false, false⟩), ?_, rfl, ?_⟩
  · show (Res.ok (writeOut false cap (openOut [.failed false]) b) >>= _) = _
    rw [hw]; rfl
  · cases b with
    | nil => exact absurd rfl hb
    | cons x xs => simp [closeOut, OutFile.fclose, OutFile.fflush, flushCalls]

/-- **C160** (violated) `WriteBlobChunk` goes on after a short count, without looking at the error.  If the library drops what it could not
write, it returns the full count although bytes taken before are gone, and `CloseBlob` returns true on every kind of stream. -/
theorem C160_chunk_violated : ∃ (b : List Byte), ∀ exempt : Bool,
    (writeReqs false 4 (openOut [.failed false]) [.chunk b]).Ok fun r =>
      r.1 = [b.length] ∧ (closeOut false exempt true 0 r.2).1 = true ∧ (closeOut false exempt true 0 r.2).2.disk ≠ b := by
  refine ⟨[1, 2, 3, 4, 5, 6], fun exempt => ⟨([6], ⟨[], [], [5, 6], true, false⟩), by decide +kernel, rfl, ?_⟩⟩
  cases exempt <;> decide +kernel

/-- **C160** (violated) `CloseBlob` does not tell of a write that failed before, even with a library that keeps what it could not write: it
looks at the error indicator only if the status, which write calls do not set, says that there was an error.  The utilities that make
digests and keyrings ignore what `WriteBlobString` returns, and rely on `CloseBlob`: the end of the file is missing, and nobody is told. -/
theorem C160_ignored_violated : ∃ (b : List Byte), ∀ exempt : Bool,
    (writeReqs true 4 (openOut [.failed false]) [.write b, .write (Spec.Xml.bytes "</rdf:RDF>\n")]).Ok fun r =>
      r.1 ≠ [b.length, 11] ∧ r.2.err = true ∧ (closeOut true exempt true 0 r.2).1 = true ∧ (closeOut true exempt true 0 r.2).2.disk = b := by
  refine ⟨[1, 2, 3, 4], fun exempt => ⟨([4, 0], ⟨[], [], [1, 2, 3, 4], true, false⟩), by decide +kernel, by decide, rfl, ?_⟩⟩
  cases exempt <;> decide +kernel

example : Sound [.took 3, .took 0] ∧ NoChunk [.write [1, 2], .sync] := by
  constructor
  · intro e; simp
  · intro b; simp

/-- The hypotheses of C160 are met: calls of `write` that take few bytes, and one that fails and is tried again. -/
example : (writeReqs true 4 (openOut [.took 1, .failed true]) [.write [1, 2, 3, 4, 5], .chunk [6, 7, 8, 9, 10]]).Ok fun r =>
    r.1 = [4, 5] ∧ (closeOut true false true 0 r.2).1 = true ∧ (closeOut true false true 0 r.2).2.disk = [1, 2, 3, 4, 6, 7, 8, 9, 10] := by
  refine ⟨([4, 5], ⟨[1, 2, 3, 4, 6, 7], [], [8, 9, 10], true, true⟩), by decide +kernel, rfl, by decide +kernel, by decide +kernel⟩

/-- The two files look the same to `getc`: one that cannot be read from `bad` on, and one that ends there. -/
structure SameReads (f g : InFile) : Prop where
  content : g.content = f.content.take f.bad
  bad : g.content.length ≤ g.bad
  pos : g.pos = f.pos

theorem same_getc {f g : InFile} (h : SameReads f g) : f.getc.1 = g.getc.1 ∧ SameReads f.getc.2 g.getc.2 := by
  obtain ⟨hc, hb, hp⟩ := h
  unfold InFile.getc
  rw [hp]
  rcases hf : f.content[f.pos]? with _ | b
  · have : g.content[f.pos]? = none := by
      rw [hc, List.getElem?_take]; split <;> simp [hf]
    simp only [this]
    exact ⟨trivial, hc, hb, rfl⟩
  · simp only []
    by_cases hl : f.bad ≤ f.pos
    · have : g.content[f.pos]? = none := by rw [hc, List.getElem?_take, if_neg (by omega)]
      rw [if_pos hl]
      simp only [this]
      exact ⟨trivial, hc, hb, rfl⟩
    · have hg : g.content[f.pos]? = some b := by rw [hc, List.getElem?_take, if_pos (by omega), hf]
      have := (List.getElem?_eq_some_iff.mp hg).1
      rw [if_neg hl]
      simp only [hg]
      rw [if_neg (by omega)]
      exact ⟨rfl, hc, hb, rfl⟩

theorem same_fread : ∀ (n : Nat) {f g : InFile}, SameReads f g → (f.fread n).1 = (g.fread n).1 ∧ SameReads (f.fread n).2 (g.fread n).2 := by
  intro n
  induction n with
  | zero => intro f g h; exact ⟨rfl, h⟩
  | succ n ih =>
    intro f g h
    obtain ⟨he, hs⟩ := same_getc h
    unfold InFile.fread
    rcases hf : f.getc with ⟨_ | b, f'⟩ <;> rcases hg : g.getc with ⟨_ | b', g'⟩ <;> simp only [hf, hg] at he hs ⊢
    · exact ⟨trivial, hs⟩
    · exact nomatch he
    · exact nomatch he
    · cases he
      have := ih hs
      exact ⟨by rw [this.1], this.2⟩

theorem fread_length : ∀ (n : Nat) (f : InFile), (f.fread n).1.length ≤ n := by
  intro n
  induction n with
  | zero => intro f; simp [InFile.fread]
  | succ n ih =>
    intro f
    unfold InFile.fread
    rcases f.getc with ⟨_ | b, f'⟩
    · simp
    · have := ih f'; simp only [List.length_cons]; omega

theorem same_chunk : ∀ (fuel n : Nat) (got : List Byte) {f g : InFile}, SameReads f g → n - got.length < fuel →
    ∃ r r', readChunkLoop fuel f n got = .ok r ∧ readChunkLoop fuel g n got = .ok r' ∧ r.1 = r'.1 ∧ SameReads r.2 r'.2 := by
  intro fuel
  induction fuel with
  | zero => intro n got f g _ h; omega
  | succ fuel ih =>
    intro n got f g h hf
    unfold readChunkLoop
    by_cases hl : got.length < n
    · obtain ⟨he, hs⟩ := same_fread (n - got.length) h
      simp only [hl, if_true, ← he]
      by_cases hz : (f.fread (n - got.length)).1.length = 0
      · simp only [hz, if_true]
        exact ⟨_, _, rfl, rfl, rfl, hs⟩
      · simp only [hz, if_false]
        exact ih n _ hs (by simp; omega)
    · simp only [hl, if_false]
      exact ⟨_, _, rfl, rfl, rfl, h⟩

theorem same_req {f g : InFile} (q : BlobReq) (h : SameReads f g) :
    ∃ r r', readReq f q = .ok r ∧ readReq g q = .ok r' ∧ r.1 = r'.1 ∧ SameReads r.2 r'.2 := by
  cases q with
  | read n => exact ⟨_, _, rfl, rfl, same_fread n h⟩
  | byte => exact ⟨_, _, rfl, rfl, same_fread 1 h⟩
  | chunk n => exact same_chunk (n + 1) n [] h (by simp)

theorem same_reqs : ∀ (reqs : List BlobReq) {f g : InFile}, SameReads f g →
    ∃ r r', readReqs f reqs = .ok r ∧ readReqs g reqs = .ok r' ∧ r.1 = r'.1 := by
  intro reqs
  induction reqs with
  | nil => intro f g _; exact ⟨_, _, rfl, rfl, rfl⟩
  | cons q reqs ih =>
    intro f g h
    obtain ⟨x, x', hx, hx', ex, sx⟩ := same_req q h
    obtain ⟨y, y', hy, hy', ey⟩ := ih sx
    refine ⟨(x.1 :: y.1, y.2), (x'.1 :: y'.1, y'.2), ?_, ?_, by simp [ex, ey]⟩
    · show (readReq f q >>= _) = _
      simp only [hx, hy, Res.ok_bind]
    · show (readReq g q >>= _) = _
      simp only [hx', hy', Res.ok_bind]

/-- Where a reader of `c` is: before the damage, at the end only when it is told so. -/
structure ReadAt (c : List Byte) (bad : Nat) (f : InFile) : Prop where
  content : f.content = c
  from_ : f.bad = bad
  pos : f.pos ≤ min bad c.length
  eof : f.eof = true → f.pos = c.length

theorem at_getc {c : List Byte} {bad : Nat} {f : InFile} (h : ReadAt c bad f) :
    ReadAt c bad f.getc.2 ∧ c.take f.pos ++ f.getc.1.toList = c.take f.getc.2.pos := by
  obtain ⟨hc, hb, hp, he⟩ := h
  have ha := Nat.le_min.mp hp
  unfold InFile.getc
  rcases hf : f.content[f.pos]? with _ | b
  · rw [hc] at hf
    have hl := List.getElem?_eq_none_iff.mp hf
    exact ⟨⟨hc, hb, hp, fun _ => by show f.pos = _; omega⟩, by simp⟩
  · simp only []
    rw [hc] at hf
    obtain ⟨hl, hv⟩ := List.getElem?_eq_some_iff.mp hf
    by_cases hd : f.bad ≤ f.pos
    · rw [if_pos hd]; exact ⟨⟨hc, hb, hp, he⟩, by simp⟩
    · rw [if_neg hd]
      refine ⟨⟨hc, hb, Nat.le_min.mpr ⟨by show f.pos + 1 ≤ _; omega, by show f.pos + 1 ≤ _; omega⟩, fun e => ?_⟩, ?_⟩
      · have := he e; omega
      · show _ = c.take (f.pos + 1)
        rw [List.take_add_one, hf]

theorem at_fread {c : List Byte} {bad : Nat} : ∀ (n : Nat) {f : InFile}, ReadAt c bad f →
    ReadAt c bad (f.fread n).2 ∧ c.take f.pos ++ (f.fread n).1 = c.take (f.fread n).2.pos := by
  intro n
  induction n with
  | zero => intro f h; exact ⟨h, by simp [InFile.fread]⟩
  | succ n ih =>
    intro f h
    obtain ⟨ha, ht⟩ := at_getc h
    unfold InFile.fread
    rcases hf : f.getc with ⟨_ | b, f'⟩ <;> simp only [hf] at ha ht ⊢
    · exact ⟨ha, by simpa using ht⟩
    · have := ih ha
      refine ⟨this.1, ?_⟩
      rw [← this.2, ← ht]; simp

theorem at_chunk {c : List Byte} {bad : Nat} : ∀ (fuel n : Nat) (got : List Byte) {f : InFile}, ReadAt c bad f → n - got.length < fuel →
    ∃ r, readChunkLoop fuel f n got = .ok r ∧ ReadAt c bad r.2 ∧ ∀ p, c.take f.pos = p ++ got → c.take r.2.pos = p ++ r.1 := by
  intro fuel
  induction fuel with
  | zero => intro n got f _ h; omega
  | succ fuel ih =>
    intro n got f h hf
    unfold readChunkLoop
    by_cases hl : got.length < n
    · obtain ⟨ha, ht⟩ := at_fread (n - got.length) h
      simp only [hl, if_true]
      by_cases hz : (f.fread (n - got.length)).1.length = 0
      · simp only [hz, if_true]
        refine ⟨_, rfl, ha, fun p hp => ?_⟩
        rw [← ht, List.eq_nil_of_length_eq_zero hz, List.append_nil, hp]
      · simp only [hz, if_false]
        obtain ⟨r, hr, hat, hp⟩ := ih n (got ++ (f.fread (n - got.length)).1) ha (by simp; omega)
        refine ⟨r, hr, hat, fun p h => hp p ?_⟩
        rw [← ht, h, List.append_assoc]
    · simp only [hl, if_false]
      exact ⟨_, rfl, h, fun p hp => hp⟩

theorem at_reqs {c : List Byte} {bad : Nat} : ∀ (reqs : List BlobReq) {f : InFile}, ReadAt c bad f →
    ∃ r, readReqs f reqs = .ok r ∧ ReadAt c bad r.2 ∧ c.take r.2.pos = c.take f.pos ++ r.1.flatten := by
  intro reqs
  induction reqs with
  | nil => intro f h; exact ⟨_, rfl, h, by simp⟩
  | cons q reqs ih =>
    intro f h
    have hq : ∃ x, readReq f q = .ok x ∧ ReadAt c bad x.2 ∧ c.take x.2.pos = c.take f.pos ++ x.1 := by
      cases q with
      | read n => exact ⟨_, rfl, (at_fread n h).1, (at_fread n h).2.symm⟩
      | byte => exact ⟨_, rfl, (at_fread 1 h).1, (at_fread 1 h).2.symm⟩
      | chunk n =>
        obtain ⟨r, hr, ha, hp⟩ := at_chunk (n + 1) n [] h (by simp)
        exact ⟨r, hr, ha, hp _ (by simp)⟩
    obtain ⟨x, hx, ax, tx⟩ := hq
    obtain ⟨y, hy, ay, ty⟩ := ih ax
    refine ⟨(x.1 :: y.1, y.2), ?_, ay, by rw [ty, tx]; simp⟩
    show (readReq f q >>= _) = _
    simp only [hx, hy, Res.ok_bind]

theorem open_at (c : List Byte) (bad : Nat) : ReadAt c bad (openIn c bad) ∧ (openIn c bad).pos = 0 := by
  have h0 : ReadAt c bad ⟨c, bad, 0, false, false⟩ := ⟨rfl, rfl, Nat.zero_le _, nofun⟩
  obtain ⟨⟨hc, hb, hp, he⟩, ht⟩ := at_fread 3 h0
  have hl : (InFile.fread 3 ⟨c, bad, 0, false, false⟩).1.length = (InFile.fread 3 ⟨c, bad, 0, false, false⟩).2.pos := by
    have := congrArg List.length ht
    simp only [List.take_zero, List.nil_append, List.length_take] at this
    rw [this]; have := Nat.le_min.mp hp; omega
  have hz : (openIn c bad).pos = 0 := by
    show (InFile.fread 3 _).2.pos - (InFile.fread 3 _).1.length = 0
    rw [hl, Nat.sub_self]
  exact ⟨⟨hc, hb, by rw [hz]; exact Nat.zero_le _, nofun⟩, hz⟩

/-- **C161** (partial: what is delivered, and `EOFBlob`.)  Whatever a file holds and wherever it cannot be read, the bytes that the read
calls deliver are the first bytes of the file, in order, none of them from behind the damage; and if the end-of-file indicator is set, they
are all of them. -/
theorem C161_partial (c : List Byte) (bad : Nat) (reqs : List BlobReq) :
    (readReqs (openIn c bad) reqs).Ok fun r =>
      (∃ n, n ≤ bad ∧ r.1.flatten = c.take n) ∧ (r.2.eof = true → r.1.flatten = c) := by
  obtain ⟨ha, hz⟩ := open_at c bad
  obtain ⟨r, hr, hat, ht⟩ := at_reqs reqs ha
  rw [hz] at ht
  simp only [List.take_zero, List.nil_append] at ht
  refine ⟨r, hr, ⟨r.2.pos, (Nat.le_min.mp hat.pos).1, ht.symm⟩, fun he => ?_⟩
  rw [← ht, hat.eof he, List.take_length]

/-- **C161** (violated) A file that cannot be read from some place on is read as if it ended there: for every file, every place and every
sequence of read calls, each call delivers what it would deliver for the shorter file, which is sound, and `CloseBlob` returns true for
both, without looking at the error indicator.  The utilities end their loops when a read delivers nothing, so they encipher, or compute the
digest of, a shorter file, and tell nobody. -/
theorem C161_damaged_violated (c : List Byte) (bad : Nat) (reqs : List BlobReq) :
    ∃ r r', readReqs (openIn c bad) reqs = .ok r ∧ readReqs (openIn (c.take bad) c.length) reqs = .ok r' ∧ r.1 = r'.1 ∧
      closeIn true 0 r.2 = (true, false) ∧ closeIn true 0 r'.2 = (true, false) := by
  have h : SameReads (openIn c bad) (openIn (c.take bad) c.length) := by
    obtain ⟨ha, hz⟩ := open_at c bad
    obtain ⟨ha', hz'⟩ := open_at (c.take bad) c.length
    exact ⟨by rw [ha.content, ha.from_, ha'.content], by rw [ha'.content, ha'.from_]; simp; omega, by rw [hz, hz']⟩
  obtain ⟨r, r', hr, hr', e⟩ := same_reqs reqs h
  exact ⟨r, r', hr, hr', e, by simp [closeIn], by simp [closeIn]⟩

/-- A file of six bytes, the last three of which cannot be read. -/
example : (readReqs (openIn [1, 2, 3, 4, 5, 6] 3) [.chunk 2, .chunk 2, .chunk 2]).Ok fun r =>
    r.1 = [[1, 2], [3], []] ∧ r.2.eof = false ∧ r.2.err = true := by
  exact ⟨_, rfl, by decide +kernel, by decide +kernel, by decide +kernel⟩

end Wizard.Props
