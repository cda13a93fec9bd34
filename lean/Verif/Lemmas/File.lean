import Verif.Spec.File
import Verif.Lemmas.Mem
import Verif.Spec.Hash
/-! Reading and writing chunks under a schedule of system calls. -/
namespace Wizard

theorem OnlyShort.noFail {s : List IOEvent} (h : OnlyShort s) : NoFail s := fun e he => .inr (h e he)

/-- A call of `read` when nothing fails. -/
theorem sysRead_spec {f : FileIO} {n : Nat} (h : NoFail f.sched) (hn : 0 < n) :
    (∃ s, f.sched = .intr :: s ∧ sysRead f n = ([], { f with eintr := true, sched := s })) ∨
    (∃ m s, 0 < m ∧ m ≤ n ∧ NoFail s ∧ (OnlyShort f.sched → OnlyShort s) ∧ (s.length < f.sched.length ∨ m = n) ∧
      s.length ≤ f.sched.length ∧
      sysRead f n = (f.rest.take m, { f with pos := f.pos + min m (f.content.length - f.pos), sched := s })) := by
  unfold sysRead FileIO.rest
  cases hs : f.sched with
  | nil => exact .inr ⟨n, [], hn, Nat.le_refl _, fun _ h => (by cases h), fun _ _ h => (by cases h), .inr rfl, by simp, by simp [← hs]⟩
  | cons e s =>
    rw [hs] at h
    have ht : NoFail s := fun x hx => h x (List.mem_cons_of_mem _ hx)
    rcases h e (List.mem_cons_self ..) with rfl | ⟨k, rfl⟩
    · exact .inl ⟨s, rfl, rfl⟩
    · exact .inr ⟨min n (k + 1), s, by omega, by omega, ht, fun ho x hx => ho x (List.mem_cons_of_mem _ hx),
        .inl (by simp), by simp, rfl⟩

/-- The loop when the file has enough bytes: it reads them all, whatever is short and whatever interrupts it. -/
theorem readLoop_full : ∀ (fuel : Nat) (f : FileIO) (n i : Nat) (buf : List Byte), NoFail f.sched → i ≤ n →
    n - i ≤ f.rest.length → n ≤ buf.length → f.sched.length + (n - i) < fuel →
    ∃ f', readLoop fuel f n i buf = .ok (true, buf.take i ++ f.rest.take (n - i) ++ buf.drop n, f') ∧
      f'.content = f.content ∧ f'.rest = f.rest.drop (n - i) ∧ NoFail f'.sched ∧ f'.dead = f.dead ∧
      f'.sched.length ≤ f.sched.length ∧
      (OnlyShort f.sched → OnlyShort f'.sched ∧ f'.eintr = f.eintr) := by
  intro fuel
  induction fuel with
  | zero => intro f n i buf _ _ _ _ h; omega
  | succ fuel ih =>
    intro f n i buf hnf hi hr hb hfu
    rw [readLoop]
    by_cases hlt : i < n
    · rw [if_pos hlt]
      rcases sysRead_spec (f := f) (n := min (n - i) 8192) hnf (by omega) with ⟨s, h1, h2⟩ | ⟨m, s, m1, m2, m3, m4, m5, m6, h2⟩
      · rw [h2]
        simp only [List.length_nil]
        rw [if_pos trivial, if_pos trivial]
        have hns : NoFail s := fun x hx => hnf x (by rw [h1]; exact List.mem_cons_of_mem _ hx)
        obtain ⟨f', a1, a2, a3, a4, a5, a7, a6⟩ := ih { f with eintr := true, sched := s } n i buf hns hi hr hb
          (by simp only []; rw [h1] at hfu; simp at hfu; omega)
        refine ⟨f', a1, a2, a3, a4, a5, ?_, ?_⟩
        · rw [h1]; simp only [] at a7; simp; omega
        · intro ho
          obtain ⟨k, hk⟩ := ho .intr (by rw [h1]; exact List.mem_cons_self ..)
          cases hk
      · rw [h2]
        simp only []
        have hl : (f.rest.take m).length = m := by rw [List.length_take]; omega
        have hrl : f.rest.length = f.content.length - f.pos := List.length_drop ..
        rw [if_neg (by omega), wrN_ok (by omega), Res.ok_bind, hl]
        have hrest : ({ f with pos := f.pos + min m (f.content.length - f.pos), sched := s } : FileIO).rest = f.rest.drop m := by
          unfold FileIO.rest
          simp only [List.drop_drop]
          rw [Nat.min_eq_left (by omega)]
        obtain ⟨f', a1, a2, a3, a4, a5, a7, a6⟩ := ih { f with pos := f.pos + min m (f.content.length - f.pos), sched := s } n (i + m)
          (buf.take i ++ f.rest.take m ++ buf.drop (i + m)) m3 (by omega) (by rw [hrest, List.length_drop]; omega)
          (by simp; omega) (by simp only []; omega)
        refine ⟨f', ?_, a2, ?_, a4, a5, by simp only [] at a7; omega, fun ho => a6 (m4 ho)⟩
        · rw [a1, hrest]
          have e1 : (buf.take i ++ f.rest.take m ++ buf.drop (i + m)).take (i + m) = buf.take i ++ f.rest.take m :=
            List.take_left' (by simp; omega)
          have e2 : (buf.take i ++ f.rest.take m ++ buf.drop (i + m)).drop n = buf.drop n := by
            rw [List.drop_append, List.drop_of_length_le (by simp; omega), List.nil_append, List.drop_drop]
            congr 1; simp; omega
          rw [e1, e2]
          have e3 : f.rest.take m ++ (f.rest.drop m).take (n - (i + m)) = f.rest.take (n - i) := by
            rw [← List.take_add]; congr 1; omega
          rw [List.append_assoc (buf.take i), e3]
        · rw [a3, hrest, List.drop_drop]; congr 1; omega
    · rw [if_neg hlt]
      have : n = i := by omega
      subst this
      exact ⟨f, by simp, rfl, by simp, hnf, rfl, Nat.le_refl _, fun h => ⟨h, rfl⟩⟩

/-- The loop at a file that is too short, when nothing interrupts it: it reads what there is and reports the failure. -/
theorem readLoop_short : ∀ (fuel : Nat) (f : FileIO) (n i : Nat) (buf : List Byte), OnlyShort f.sched → f.eintr = false →
    f.rest.length < n - i → n ≤ buf.length → f.rest.length + 1 < fuel →
    ∃ f', readLoop fuel f n i buf = .ok (false, buf.take i ++ f.rest ++ buf.drop (i + f.rest.length), f') ∧
      f'.content = f.content ∧ f'.rest = [] ∧ OnlyShort f'.sched ∧ f'.eintr = false ∧ f'.dead = f.dead ∧
      f'.sched.length ≤ f.sched.length := by
  intro fuel
  induction fuel with
  | zero => intro f n i buf _ _ _ _ h; omega
  | succ fuel ih =>
    intro f n i buf hos he hr hb hfu
    rw [readLoop, if_pos (by omega)]
    rcases sysRead_spec (f := f) (n := min (n - i) 8192) hos.noFail (by omega) with ⟨s, h1, h2⟩ | ⟨m, s, m1, m2, m3, m4, m5, m6, h2⟩
    · obtain ⟨k, hk⟩ := hos .intr (by rw [h1]; exact List.mem_cons_self ..)
      cases hk
    · rw [h2]
      simp only []
      have hrl : f.rest.length = f.content.length - f.pos := List.length_drop ..
      by_cases h0 : f.rest.length = 0
      · have h0' : f.rest = [] := List.eq_nil_of_length_eq_zero h0
        rw [if_pos (by rw [h0']; simp), he]
        simp only [Bool.false_eq_true, if_false]
        refine ⟨⟨f.content, f.pos + min m (f.content.length - f.pos), false, f.dead, s⟩, ?_, rfl, ?_, m4 hos, rfl, rfl, m6⟩
        · rw [h0']; simp
        · show List.drop _ _ = []
          apply List.drop_of_length_le; simp only []; omega
      · have hl : (f.rest.take m).length = min m f.rest.length := List.length_take ..
        rw [if_neg (by omega), wrN_ok (by omega), Res.ok_bind, hl]
        have hrest : ({ f with pos := f.pos + min m (f.content.length - f.pos), sched := s } : FileIO).rest = f.rest.drop m := by
          unfold FileIO.rest
          simp only [List.drop_drop]
          rcases Nat.le_total m (f.content.length - f.pos) with h | h
          · rw [Nat.min_eq_left h]
          · rw [Nat.min_eq_right h, List.drop_of_length_le (by omega), List.drop_of_length_le (by omega)]
        obtain ⟨f', a1, a2, a3, a4, a5, a6, a7⟩ := ih { f with pos := f.pos + min m (f.content.length - f.pos), sched := s } n
          (i + min m f.rest.length) (buf.take i ++ f.rest.take m ++ buf.drop (i + min m f.rest.length)) (m4 hos) he
          (by rw [hrest, List.length_drop]; omega) (by simp; omega) (by rw [hrest, List.length_drop]; omega)
        refine ⟨f', ?_, a2, a3, a4, a5, a6, by simp only [] at a7; omega⟩
        rw [a1, hrest]
        have e1 : (buf.take i ++ f.rest.take m ++ buf.drop (i + min m f.rest.length)).take (i + min m f.rest.length) =
            buf.take i ++ f.rest.take m := List.take_left' (by simp; omega)
        have e2 : (buf.take i ++ f.rest.take m ++ buf.drop (i + min m f.rest.length)).drop
            (i + min m f.rest.length + (f.rest.drop m).length) = buf.drop (i + f.rest.length) := by
          rw [List.drop_append, List.drop_of_length_le (by simp; omega), List.nil_append, List.drop_drop]
          congr 1; simp; omega
        rw [e1, e2]
        rw [List.append_assoc (buf.take i), List.take_append_drop]

/-- The loop at a file that is too short when `errno` is `EINTR`: it never ends. -/
theorem readLoop_hang : ∀ (fuel : Nat) (f : FileIO) (n i : Nat) (buf : List Byte), NoFail f.sched → f.eintr = true →
    f.rest.length < n - i → n ≤ buf.length → readLoop fuel f n i buf = .fatal := by
  intro fuel
  induction fuel with
  | zero => intro f n i buf _ _ _ _; rfl
  | succ fuel ih =>
    intro f n i buf hos he hr hb
    rw [readLoop, if_pos (by omega)]
    rcases sysRead_spec (f := f) (n := min (n - i) 8192) hos (by omega) with ⟨s, h1, h2⟩ | ⟨m, s, m1, m2, m3, m4, m5, m6, h2⟩
    · rw [h2]
      simp only [List.length_nil]
      rw [if_pos trivial, if_pos trivial]
      have hns : NoFail s := fun x hx => hos x (by rw [h1]; exact List.mem_cons_of_mem _ hx)
      exact ih _ _ _ _ hns rfl hr hb
    · rw [h2]
      simp only []
      have hrl : f.rest.length = f.content.length - f.pos := List.length_drop ..
      have hrest : ({ f with pos := f.pos + min m (f.content.length - f.pos), sched := s } : FileIO).rest = f.rest.drop m := by
        unfold FileIO.rest
        simp only [List.drop_drop]
        rcases Nat.le_total m (f.content.length - f.pos) with h | h
        · rw [Nat.min_eq_left h]
        · rw [Nat.min_eq_right h, List.drop_of_length_le (by omega), List.drop_of_length_le (by omega)]
      have hl : (f.rest.take m).length = min m f.rest.length := List.length_take ..
      by_cases h0 : f.rest.length = 0
      · rw [if_pos (by omega), he]
        simp only [if_true]
        exact ih _ _ _ _ m3 rfl (by rw [← he, hrest, List.length_drop]; omega) hb
      · rw [if_neg (by omega), wrN_ok (by omega), Res.ok_bind, hl]
        exact ih _ _ _ _ m3 he (by rw [hrest, List.length_drop]; omega) (by simp; omega)

/-! ### Calm files -/

/-- No failures and no interruptions. -/
structure Calm (f : FileIO) (s : List Byte) : Prop where
  sched : OnlyShort f.sched
  eintr : f.eintr = false
  rest : f.rest = s

theorem readFileChunk_calm {fuel : Nat} {f : FileIO} {s buf : List Byte} {n : Nat} (h : Calm f s) (hb : n ≤ buf.length)
    (hf : f.sched.length + n + 1 < fuel) :
    ∃ f', readFileChunk fuel f buf n = .ok (decide (n ≤ s.length), s.take n ++ buf.drop (min n s.length), f') ∧
      Calm f' (s.drop n) ∧ f'.sched.length ≤ f.sched.length := by
  unfold readFileChunk
  obtain ⟨h1, h2, h3⟩ := h
  by_cases hl : n ≤ s.length
  · obtain ⟨f', a1, a2, a3, a4, a5, a7, a6⟩ := readLoop_full fuel f n 0 buf h1.noFail (by omega) (by rw [h3]; omega) hb (by omega)
    refine ⟨f', ?_, ⟨(a6 h1).1, (a6 h1).2.trans h2, by rw [a3, h3]; rfl⟩, a7⟩
    rw [a1, h3, decide_eq_true hl, Nat.min_eq_left hl]; simp
  · obtain ⟨f', a1, a2, a3, a4, a5, a6, a7⟩ := readLoop_short fuel f n 0 buf h1 h2 (by rw [h3]; omega) hb (by rw [h3]; omega)
    refine ⟨f', ?_, ⟨a4, a5, by rw [a3, List.drop_of_length_le (by omega)]⟩, a7⟩
    rw [a1, h3, decide_eq_false hl, Nat.min_eq_right (by omega), List.take_of_length_le (l := s) (by omega)]; simp

/-! ### Writing -/

theorem sysWrite_spec {f : FileIO} {b : List Byte} (h : NoFail f.sched) (hn : 0 < b.length) :
    (∃ s, f.sched = .intr :: s ∧ sysWrite f b = (0, { f with eintr := true, sched := s })) ∨
    (∃ m s, 0 < m ∧ m ≤ b.length ∧ NoFail s ∧ s.length ≤ f.sched.length ∧ 
      sysWrite f b = (m, { f.put (b.take m) with sched := s })) := by
  unfold sysWrite
  cases hs : f.sched with
  | nil =>
    refine .inr ⟨b.length, [], hn, Nat.le_refl _, fun _ h => (by cases h), by simp, ?_⟩
    rw [List.take_length]
    simp only [Prod.mk.injEq, true_and]
    unfold FileIO.put
    split <;> simp [← hs]
  | cons e s =>
    rw [hs] at h
    have ht : NoFail s := fun x hx => h x (List.mem_cons_of_mem _ hx)
    rcases h e (List.mem_cons_self ..) with rfl | ⟨k, rfl⟩
    · exact .inl ⟨s, rfl, rfl⟩
    · refine .inr ⟨min b.length (k + 1), s, by omega, by omega, ht, by simp, ?_⟩
      simp only []
      have : b.take (k + 1) = b.take (min b.length (k + 1)) := by
        rcases Nat.le_total b.length (k + 1) with h | h
        · rw [Nat.min_eq_left h, List.take_of_length_le h, List.take_length]
        · rw [Nat.min_eq_right h]
      rw [this]

theorem put_put {f : FileIO} (hp : f.pos ≤ f.content.length) (hd : f.dead = false) (a b : List Byte) (s : List IOEvent) :
    ({ f.put a with sched := s } : FileIO).put b = { f.put (a ++ b) with sched := s } := by
  unfold FileIO.put
  rw [hd]
  simp only [Bool.false_eq_true, if_false]
  have e1 : (f.content.take f.pos ++ a ++ f.content.drop (f.pos + a.length)).take (f.pos + a.length) = f.content.take f.pos ++ a :=
    List.take_left' (by simp; omega)
  have e2 : (f.content.take f.pos ++ a ++ f.content.drop (f.pos + a.length)).drop (f.pos + a.length + b.length) =
      f.content.drop (f.pos + (a ++ b).length) := by
    rw [List.drop_append, List.drop_of_length_le (by simp; omega), List.nil_append, List.drop_drop]
    congr 1; simp; omega
  rw [e1, e2]
  simp [Nat.add_assoc]

theorem put_pos {f : FileIO} (hp : f.pos ≤ f.content.length) (b : List Byte) : (f.put b).pos ≤ (f.put b).content.length := by
  unfold FileIO.put
  split
  · exact hp
  · simp; omega

theorem writeLoop_full : ∀ (fuel : Nat) (f : FileIO) (data : List Byte) (i : Nat), NoFail f.sched → f.dead = false →
    f.pos ≤ f.content.length → i ≤ data.length → f.sched.length + (data.length - i) < fuel →
    ∃ f', writeLoop fuel f data i = .ok (true, f') ∧ f'.content = (f.put (data.drop i)).content ∧
      f'.pos = f.pos + (data.length - i) ∧ NoFail f'.sched ∧ f'.dead = false ∧ f'.sched.length ≤ f.sched.length := by
  intro fuel
  induction fuel with
  | zero => intro f data i _ _ _ _ h; omega
  | succ fuel ih =>
    intro f data i hnf hd hp hi hfu
    rw [writeLoop]
    by_cases hlt : i < data.length
    · rw [if_pos hlt]
      rcases sysWrite_spec (f := f) (b := data.drop i) hnf (by rw [List.length_drop]; omega) with ⟨s, h1, h2⟩ | ⟨m, s, m1, m2, m3, m4, h2⟩
      · rw [h2]
        simp only [if_true]
        have hns : NoFail s := fun x hx => hnf x (by rw [h1]; exact List.mem_cons_of_mem _ hx)
        obtain ⟨f', a1, a2, a3, a4, a5, a6⟩ := ih { f with eintr := true, sched := s } data i hns hd hp hi
          (by simp only []; rw [h1] at hfu; simp at hfu; omega)
        refine ⟨f', a1, ?_, a3, a4, a5, by rw [h1]; simp only [] at a6; simp; omega⟩
        rw [a2]; unfold FileIO.put; simp only [hd]; rfl
      · rw [h2]
        rw [List.length_drop] at m2
        simp only []
        rw [if_neg (by omega)]
        have hd' : (f.put ((data.drop i).take m)).dead = false := by
          unfold FileIO.put; rw [hd]; rfl
        have hp' : (f.put ((data.drop i).take m)).pos = f.pos + m := by
          unfold FileIO.put; rw [hd]; simp; omega
        obtain ⟨f', a1, a2, a3, a4, a5, a6⟩ := ih { f.put ((data.drop i).take m) with sched := s } data (i + m) m3 hd'
          (put_pos hp _) (by omega) (by simp only []; omega)
        refine ⟨f', a1, ?_, ?_, a4, a5, by simp only [] at a6; omega⟩
        · rw [a2, put_put hp hd, ← List.drop_drop, List.take_append_drop]
        · rw [a3]; simp only [hp']; omega
    · rw [if_neg hlt]
      have : i = data.length := by omega
      subst this
      refine ⟨f, rfl, ?_, by simp, hnf, hd, Nat.le_refl _⟩
      unfold FileIO.put
      rw [hd]; simp

/-! ### Integers -/

theorem bytes16 (v : BitVec 16) : (((v >>> 8).setWidth 8 : Byte).setWidth 16 <<< 8) ||| ((v.setWidth 8 : Byte).setWidth 16) = v := by
  apply BitVec.eq_of_getLsbD_eq
  intro i hi
  simp only [BitVec.getLsbD_or, BitVec.getLsbD_shiftLeft, BitVec.getLsbD_setWidth, BitVec.getLsbD_ushiftRight, hi, decide_true, Bool.true_and]
  by_cases h : i < 8
  · simp [h]
  · have : 8 + (i - 8) = i := by omega
    simp [h, this, show i - 8 < 8 by omega, show i - 8 < 16 by omega]

def join32 (b0 b1 b2 b3 : Byte) : BitVec 64 := (wide b3 <<< 24) ||| (wide b2 <<< 16) ||| (wide b1 <<< 8) ||| wide b0

def join64 (b0 b1 b2 b3 b4 b5 b6 b7 : Byte) : BitVec 64 :=
  (wide b7 <<< 56) ||| (wide b6 <<< 48) ||| (wide b5 <<< 40) ||| (wide b4 <<< 32) ||| (wide b3 <<< 24) |||
      (wide b2 <<< 16) ||| (wide b1 <<< 8) ||| wide b0

theorem wide_bit (v : BitVec 64) (k o i : Nat) (hi : i < 64) :
    (wide ((v >>> k).setWidth 8) <<< o).getLsbD i = (decide (o ≤ i) && decide (i < o + 8) && v.getLsbD (k + (i - o))) := by
  unfold wide
  simp only [BitVec.getLsbD_shiftLeft, BitVec.getLsbD_setWidth, BitVec.getLsbD_ushiftRight, hi, decide_true, Bool.true_and]
  by_cases h : i < o
  · have : ¬ o ≤ i := by omega
    simp [h, this]
  · have h2 : o ≤ i := by omega
    by_cases h3 : i < o + 8
    · have h4 : i - o < 8 := by omega
      have h5 : i - o < 64 := by omega
      simp [h, h2, h3, h4, h5]
    · have h4 : ¬ i - o < 8 := by omega
      simp [h3, h4]

theorem wide_bit0 (v : BitVec 64) (k i : Nat) (hi : i < 64) :
    (wide ((v >>> k).setWidth 8)).getLsbD i = (decide (i < 8) && v.getLsbD (k + i)) := by
  have := wide_bit v k 0 i hi
  rw [BitVec.shiftLeft_zero] at this
  simpa using this

theorem join32_split (v : BitVec 64) : join32 ((v >>> 0).setWidth 8) ((v >>> 8).setWidth 8) ((v >>> 16).setWidth 8)
    ((v >>> 24).setWidth 8) = (v.setWidth 32).setWidth 64 := by
  apply BitVec.eq_of_getLsbD_eq
  intro i hi
  unfold join32
  simp only [BitVec.getLsbD_or, wide_bit _ _ _ _ hi, wide_bit0 _ _ _ hi, BitVec.getLsbD_setWidth, hi, decide_true, Bool.true_and]
  rcases (show i < 8 ∨ (8 ≤ i ∧ i < 16) ∨ (16 ≤ i ∧ i < 24) ∨ (24 ≤ i ∧ i < 32) ∨ 32 ≤ i by omega) with h | h | h | h | h
  · simp [show ¬ 24 ≤ i by omega, show ¬ 16 ≤ i by omega, show ¬ 8 ≤ i by omega, h, show i < 32 by omega]
  · simp [show ¬ 24 ≤ i by omega, show ¬ 16 ≤ i by omega, h.1, show i < 8 + 8 by omega, show ¬ i < 8 by omega, show i < 32 by omega, show 8 + (i - 8) = i by omega]
  · simp [show ¬ 24 ≤ i by omega, h.1, show i < 16 + 8 by omega, show ¬ i < 8 + 8 by omega, show ¬ i < 8 by omega, show i < 32 by omega, show 16 + (i - 16) = i by omega]
  · simp [h.1, show i < 24 + 8 by omega, show ¬ i < 16 + 8 by omega, show ¬ i < 8 + 8 by omega, show ¬ i < 8 by omega, show i < 32 by omega, show 24 + (i - 24) = i by omega]
  · simp [show ¬ i < 24 + 8 by omega, show ¬ i < 16 + 8 by omega, show ¬ i < 8 + 8 by omega, show ¬ i < 8 by omega, show ¬ i < 32 by omega]

theorem join64_split (v : BitVec 64) : join64 ((v >>> 0).setWidth 8) ((v >>> 8).setWidth 8) ((v >>> 16).setWidth 8)
    ((v >>> 24).setWidth 8) ((v >>> 32).setWidth 8) ((v >>> 40).setWidth 8) ((v >>> 48).setWidth 8) ((v >>> 56).setWidth 8) = v := by
  apply BitVec.eq_of_getLsbD_eq
  intro i hi
  unfold join64
  simp only [BitVec.getLsbD_or, wide_bit _ _ _ _ hi, wide_bit0 _ _ _ hi]
  have key : ∀ o, (decide (o ≤ i) && decide (i < o + 8) && v.getLsbD (o + (i - o))) =
      (decide (o ≤ i ∧ i < o + 8) && v.getLsbD i) := by
    intro o
    by_cases h : o ≤ i
    · rw [show o + (i - o) = i by omega]; simp
    · simp [h]
  rw [key, key, key, key, key, key, key, Nat.zero_add]
  simp only [← Bool.and_or_distrib_right, ← Bool.decide_or]
  rw [decide_eq_true (by omega), Bool.true_and]

theorem shr_ofNat8 (v : BitVec 64) (k : Nat) : ((v >>> k).setWidth 8 : Byte) = BitVec.ofNat 8 (v.toNat / 2 ^ k) := by
  apply BitVec.eq_of_toNat_eq
  simp [BitVec.toNat_setWidth, Nat.shiftRight_eq_div_pow]

theorem shr16_ofNat8 (v : BitVec 16) (k : Nat) : ((v >>> k).setWidth 8 : Byte) = BitVec.ofNat 8 (v.toNat / 2 ^ k) := by
  apply BitVec.eq_of_toNat_eq
  simp [BitVec.toNat_setWidth, Nat.shiftRight_eq_div_pow]

theorem setWidth_shr0 {w : Nat} (v : BitVec w) : (v.setWidth 8 : Byte) = (v >>> 0).setWidth 8 := by
  rw [BitVec.ushiftRight_zero]

open Spec.Hash in
theorem le2_eq (v : BitVec 16) : le 2 v.toNat = [v.setWidth 8, (v >>> 8).setWidth 8] := by
  rw [setWidth_shr0 v, shr16_ofNat8, shr16_ofNat8]
  simp [le, List.range_succ]

open Spec.Hash in
theorem le4_eq (v : BitVec 64) : le 4 v.toNat = [v.setWidth 8, (v >>> 8).setWidth 8, (v >>> 16).setWidth 8, (v >>> 24).setWidth 8] := by
  rw [setWidth_shr0 v, shr_ofNat8, shr_ofNat8, shr_ofNat8, shr_ofNat8]
  simp [le, List.range_succ]

open Spec.Hash in
theorem le8_eq (v : BitVec 64) : le 8 v.toNat = [v.setWidth 8, (v >>> 8).setWidth 8, (v >>> 16).setWidth 8, (v >>> 24).setWidth 8,
    (v >>> 32).setWidth 8, (v >>> 40).setWidth 8, (v >>> 48).setWidth 8, (v >>> 56).setWidth 8] := by
  rw [setWidth_shr0 v, shr_ofNat8, shr_ofNat8, shr_ofNat8, shr_ofNat8, shr_ofNat8, shr_ofNat8, shr_ofNat8, shr_ofNat8]
  simp [le, List.range_succ]

theorem le_length (k v : Nat) : (Spec.Hash.le k v).length = k := by simp [Spec.Hash.le]

theorem writeFile16_eq (fuel : Nat) (f : FileIO) (v : BitVec 16) : writeFile16 fuel f v = writeFileChunk fuel f (Spec.Hash.le 2 v.toNat) := by
  rw [le2_eq]; rfl

theorem writeFile32_eq (fuel : Nat) (f : FileIO) (v : BitVec 64) : writeFile32 fuel f v = writeFileChunk fuel f (Spec.Hash.le 4 v.toNat) := by
  rw [le4_eq]; rfl

theorem writeFile64_eq (fuel : Nat) (f : FileIO) (v : BitVec 64) : writeFile64 fuel f v = writeFileChunk fuel f (Spec.Hash.le 8 v.toNat) := by
  rw [le8_eq]; rfl

/-- What a read leaves. -/
structure ReadTo (f f' : FileIO) (t : List Byte) : Prop where
  content : f'.content = f.content
  rest : f'.rest = t
  noFail : NoFail f'.sched
  dead : f'.dead = f.dead
  sched : f'.sched.length ≤ f.sched.length
  calm : OnlyShort f.sched → OnlyShort f'.sched ∧ f'.eintr = f.eintr

theorem readFileChunk_full {fuel : Nat} {f : FileIO} {a t buf : List Byte} (h : NoFail f.sched) (hr : f.rest = a ++ t)
    (hb : a.length ≤ buf.length) (hf : f.sched.length + a.length < fuel) :
    ∃ f', readFileChunk fuel f buf a.length = .ok (true, a ++ buf.drop a.length, f') ∧ ReadTo f f' t := by
  obtain ⟨f', a1, a2, a3, a4, a5, a7, a6⟩ := readLoop_full fuel f a.length 0 buf h (by omega) (by rw [hr]; simp) hb (by omega)
  refine ⟨f', ?_, a2, ?_, a4, a5, a7, a6⟩
  · unfold readFileChunk
    rw [a1, hr]; simp
  · rw [a3, hr]; simp

theorem rd_bytes2 {α : Type} (x y : Byte) (k : Byte → Byte → Res α) :
    (rd [x, y] 0 >>= fun a => rd [x, y] 1 >>= fun b => k a b) = k x y := rfl

theorem rd_bytes4 {α : Type} (x y z w : Byte) (k : Byte → Byte → Byte → Byte → Res α) :
    (rd [x, y, z, w] 0 >>= fun a => rd [x, y, z, w] 1 >>= fun b => rd [x, y, z, w] 2 >>= fun c => rd [x, y, z, w] 3 >>= fun d =>
      k a b c d) = k x y z w := rfl

theorem readFile64_of {fuel : Nat} {f f' : FileIO} {x y z w p q r s : Byte} (old : BitVec 64)
    (h : readFileChunk fuel f (List.replicate 8 0) 8 = .ok (true, [x, y, z, w, p, q, r, s], f')) :
    readFile64 fuel f old = .ok (true, join64 x y z w p q r s, f') := by
  unfold readFile64
  rw [h]
  rfl

theorem readFile16_full {fuel : Nat} {f : FileIO} {v : BitVec 16} {t : List Byte} (old : BitVec 16) (h : NoFail f.sched)
    (hr : f.rest = Spec.Hash.le 2 v.toNat ++ t) (hf : f.sched.length + 2 < fuel) :
    ∃ f', readFile16 fuel f old = .ok (true, v, f') ∧ ReadTo f f' t := by
  have hl := le_length 2 v.toNat
  obtain ⟨f', h1, h2⟩ := readFileChunk_full (buf := List.replicate 2 0) h hr (by rw [hl]; simp) (by rw [hl]; exact hf)
  refine ⟨f', ?_, h2⟩
  rw [hl] at h1
  unfold readFile16
  rw [h1, le2_eq]
  simp only [List.drop_replicate, Nat.sub_self, List.replicate_zero, List.append_nil, Res.ok_bind]
  rw [if_pos trivial, rd_bytes2, bytes16]

theorem readFile32_full {fuel : Nat} {f : FileIO} {v : BitVec 64} {t : List Byte} (old : BitVec 64) (h : NoFail f.sched)
    (hr : f.rest = Spec.Hash.le 4 v.toNat ++ t) (hf : f.sched.length + 4 < fuel) :
    ∃ f', readFile32 fuel f old = .ok (true, (v.setWidth 32).setWidth 64, f') ∧ ReadTo f f' t := by
  have hl := le_length 4 v.toNat
  obtain ⟨f', h1, h2⟩ := readFileChunk_full (buf := List.replicate 4 0) h hr (by rw [hl]; simp) (by rw [hl]; exact hf)
  refine ⟨f', ?_, h2⟩
  rw [hl] at h1
  unfold readFile32
  rw [h1, le4_eq]
  simp only [List.drop_replicate, Nat.sub_self, List.replicate_zero, List.append_nil, Res.ok_bind]
  rw [if_pos trivial, rd_bytes4, setWidth_shr0 v]
  exact congrArg (fun x => Res.ok (true, x, f')) (join32_split v)

theorem readFile64_full {fuel : Nat} {f : FileIO} {v : BitVec 64} {t : List Byte} (old : BitVec 64) (h : NoFail f.sched)
    (hr : f.rest = Spec.Hash.le 8 v.toNat ++ t) (hf : f.sched.length + 8 < fuel) :
    ∃ f', readFile64 fuel f old = .ok (true, v, f') ∧ ReadTo f f' t := by
  have hl := le_length 8 v.toNat
  obtain ⟨f', h1, h2⟩ := readFileChunk_full (buf := List.replicate 8 0) h hr (by rw [hl]; simp) (by rw [hl]; exact hf)
  refine ⟨f', ?_, h2⟩
  rw [hl] at h1
  rw [le8_eq, List.drop_replicate, Nat.sub_self, List.replicate_zero, List.append_nil, setWidth_shr0 v] at h1
  rw [readFile64_of old h1, join64_split]

/-- Too few bytes are left. -/
theorem readFile16_short {fuel : Nat} {f : FileIO} {s : List Byte} (old : BitVec 16) (h : Calm f s) (hs : s.length < 2)
    (hf : f.sched.length + 2 + 1 < fuel) :
    ∃ f', readFile16 fuel f old = .ok (false, old, f') ∧ Calm f' [] ∧ f'.sched.length ≤ f.sched.length := by
  obtain ⟨f', h1, h2, h3⟩ := readFileChunk_calm (n := 2) (buf := List.replicate 2 0) h (by simp) hf
  refine ⟨f', ?_, by rwa [List.drop_of_length_le (by omega)] at h2, h3⟩
  unfold readFile16
  rw [h1, Res.ok_bind, decide_eq_false (by omega)]
  rfl

theorem readFile32_short {fuel : Nat} {f : FileIO} {s : List Byte} (old : BitVec 64) (h : Calm f s) (hs : s.length < 4)
    (hf : f.sched.length + 4 + 1 < fuel) :
    ∃ f', readFile32 fuel f old = .ok (false, old, f') ∧ Calm f' [] ∧ f'.sched.length ≤ f.sched.length := by
  obtain ⟨f', h1, h2, h3⟩ := readFileChunk_calm (n := 4) (buf := List.replicate 4 0) h (by simp) hf
  refine ⟨f', ?_, by rwa [List.drop_of_length_le (by omega)] at h2, h3⟩
  unfold readFile32
  rw [h1, Res.ok_bind, decide_eq_false (by omega)]
  rfl

theorem readFile64_short {fuel : Nat} {f : FileIO} {s : List Byte} (old : BitVec 64) (h : Calm f s) (hs : s.length < 8)
    (hf : f.sched.length + 8 + 1 < fuel) :
    ∃ f', readFile64 fuel f old = .ok (false, old, f') ∧ Calm f' [] ∧ f'.sched.length ≤ f.sched.length := by
  obtain ⟨f', h1, h2, h3⟩ := readFileChunk_calm (n := 8) (buf := List.replicate 8 0) h (by simp) hf
  refine ⟨f', ?_, by rwa [List.drop_of_length_le (by omega)] at h2, h3⟩
  unfold readFile64
  rw [h1, Res.ok_bind, decide_eq_false (by omega)]
  rfl

end Wizard
