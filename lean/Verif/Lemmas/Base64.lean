import Verif.Model.Base64
import Verif.Spec.Base64
import Verif.Lemmas.Copy
import Verif.Lemmas.Mem
/-! Lemmas for base-64: a functional decoder, its agreement with the specification and with the
model. -/
namespace Wizard
open Wizard.Spec

theorem b64Index_spec : ∀ c : Byte, b64Index c = (sextet c).map byteOf := by decide +kernel

theorem sextet_lt : ∀ c : Byte, ∀ x ∈ sextet c, x < 64 := by decide +kernel

theorem isSpace_iff : ∀ c : Byte, isSpace c = decide (IsBlank c) := by decide +kernel

theorem isSpace_eq : ∀ c : Byte, isSpace c = decide (IsBlank c) := isSpace_iff

theorem eq_not_sextet : sextet (asc '=') = none := by decide +kernel
theorem eq_not_space : isSpace (asc '=') = false := by decide +kernel

theorem byte0 (x y : Nat) (hx : x < 64) (hy : y < 64) :
    (byteOf x <<< 2) ||| (byteOf y >>> 4) = byteOf (x * 4 + y / 16) := by
  have h : ∀ x y : Fin 64, (byteOf x.val <<< 2) ||| (byteOf y.val >>> 4) =
      byteOf (x.val * 4 + y.val / 16) := by decide +kernel
  exact h ⟨x, hx⟩ ⟨y, hy⟩

theorem byte1 (y z : Nat) (hy : y < 64) (hz : z < 64) :
    ((byteOf y &&& 0x0f) <<< 4) ||| (byteOf z >>> 2) = byteOf (y % 16 * 16 + z / 4) := by
  have h : ∀ y z : Fin 64, ((byteOf y.val &&& 0x0f) <<< 4) ||| (byteOf z.val >>> 2) =
      byteOf (y.val % 16 * 16 + z.val / 4) := by decide +kernel
  exact h ⟨y, hy⟩ ⟨z, hz⟩

theorem byte2 (z w : Nat) (hz : z < 64) (hw : w < 64) :
    ((byteOf z &&& 0x03) <<< 6) ||| byteOf w = byteOf (z % 4 * 64 + w) := by
  have h : ∀ z w : Fin 64, ((byteOf z.val &&& 0x03) <<< 6) ||| byteOf w.val =
      byteOf (z.val % 4 * 64 + w.val) := by decide +kernel
  exact h ⟨z, hz⟩ ⟨w, hw⟩

theorem low4 (y : Nat) (hy : y < 64) : ((byteOf y &&& 0x0f) <<< 4 = 0) ↔ y % 16 = 0 := by
  have h : ∀ y : Fin 64, ((byteOf y.val &&& 0x0f) <<< 4 = 0) ↔ y.val % 16 = 0 := by
    decide +kernel
  exact h ⟨y, hy⟩

theorem low2 (y : Nat) (hy : y < 64) : ((byteOf y &&& 0x03) <<< 6 = 0) ↔ y % 4 = 0 := by
  have h : ∀ y : Fin 64, ((byteOf y.val &&& 0x03) <<< 6 = 0) ↔ y.val % 4 = 0 := by
    decide +kernel
  exact h ⟨y, hy⟩

/-- The characters accepted so far in the current group, as the loop sees them. -/
inductive Pend : List Byte → List Byte → Prop
  | p0 : Pend [] []
  | p1 {a x} : sextet a = some x → Pend [a] [byteOf x <<< 2]
  | p2 {a b x y} : sextet a = some x → sextet b = some y →
      Pend [a, b] [byteOf (x * 4 + y / 16), (byteOf y &&& 0x0f) <<< 4]
  | p3 {a b c x y z} : sextet a = some x → sextet b = some y → sextet c = some z →
      Pend [a, b, c] [byteOf (x * 4 + y / 16), byteOf (y % 16 * 16 + z / 4),
        (byteOf z &&& 0x03) <<< 6]

theorem rd_mid' (a t : List Byte) (c : Byte) (i : Nat) (h : i = a.length) :
    rd (a ++ c :: t) i = .ok c := by subst h; exact rd_append_mid a t c

theorem wr_mid (a t : List Byte) (c d : Byte) (i : Nat) (h : i = a.length) :
    wr (a ++ c :: t) i d = .ok (a ++ d :: t) := by
  subst h; simp [wr]

/-- What decoding gives for the remaining characters `r`, after the complete groups `out` and the
pending characters `pend`. -/
def Expect (out pend r : List Byte) (res : Res (Option (List Byte))) : Prop :=
  ∃ o, res = .ok o ∧ ∀ bs, o = some bs ↔ ∃ bs', bs = out ++ bs' ∧ B64 (pend ++ unblank r) bs'

/-- utility.c:206-259: everything after the main loop. -/
def b64Finish (o : Option (List Byte × B64State)) : Res (Option (List Byte)) :=
  match o with
    | none => pure none
    | some ([], st) =>
      if st.state ≠ 0 then pure none
      else do
        let out ← rdN st.decode 0 st.i
        pure (some out)
    | some (_ :: r, st) =>
      match st.state with
      | 0 => pure none
      | 1 => pure none
      | 2 =>
        match r.dropWhile isSpace with
        | [] => pure none
        | c :: r => if c ≠ asc '=' then pure none else b64Tail r st
      | _ => b64Tail r st

theorem expect_none {out pend r : List Byte} {res : Res (Option (List Byte))}
    (h : res = .ok none) (h' : ∀ bs, ¬ B64 (pend ++ unblank r) bs) : Expect out pend r res :=
  ⟨none, h, fun bs => Iff.intro (fun h => by cases h) (fun h => by
    obtain ⟨bs', _, hb⟩ := h; exact absurd hb (h' bs'))⟩

theorem unblank_space {c : Byte} {r : List Byte} (h : isSpace c = true) :
    unblank (c :: r) = unblank r := by
  rw [isSpace_iff] at h
  simp at h
  simp [unblank, h]

theorem unblank_char {c : Byte} {r : List Byte} (h : isSpace c = false) :
    unblank (c :: r) = c :: unblank r := by
  rw [isSpace_iff] at h
  simp at h
  simp [unblank, h]

theorem unblank_eq_nil (r : List Byte) : unblank r = [] ↔ r.all isSpace = true := by
  induction r with
  | nil => simp [unblank]
  | cons c r ih =>
    by_cases h : isSpace c = true
    · rw [unblank_space h, ih]; simp [h]
    · simp only [Bool.not_eq_true] at h
      rw [unblank_char h]; simp [h]

theorem unblank_dropWhile (r : List Byte) :
    unblank (r.dropWhile isSpace) = unblank r := by
  induction r with
  | nil => rfl
  | cons c r ih =>
    by_cases h : isSpace c = true
    · simp only [List.dropWhile_cons, h, if_true, unblank_space h, ih]
    · simp only [List.dropWhile_cons, h]; rfl

theorem not_sextet_eq {a : Byte} {x : Nat} (h : sextet a = some x) : a ≠ asc '=' := by
  rintro rfl; rw [eq_not_sextet] at h; cases h

/-- The state of the loop that stands for complete output `out` and pending bytes `pb`. -/
structure Rep (out pend pb : List Byte) (s : B64State) (junk : List Byte) : Prop where
  hp : Pend pend pb
  st : s.state = pend.length
  mem : s.decode = out ++ pb ++ junk
  idx : s.i = out.length + (pend.length - 1)

theorem tail_spec (out pb : List Byte) (last : Byte) (s : B64State)
    (r junk : List Byte) (hm : s.decode = out ++ (pb ++ [last]) ++ junk)
    (hi : s.i = out.length + pb.length) :
    b64Tail r s = .ok (if unblank r = [] ∧ last = 0 then some (out ++ pb) else none) := by
  unfold b64Tail
  simp only [unblank_eq_nil]
  by_cases h : r.all isSpace = true
  · rw [if_pos h, hm, show out ++ (pb ++ [last]) ++ junk = (out ++ pb) ++ last :: junk by simp,
      rd_mid' _ _ _ _ (by simp [hi])]
    simp only [Res.ok_bind, h, true_and]
    by_cases hl : last = 0
    · rw [if_neg (by simp [hl]), if_pos hl, rdN_ok (by simp; omega), hi,
        ← List.length_append, List.drop_zero, List.take_left]
      rfl
    · rw [if_pos hl, if_neg hl]; rfl
  · rw [if_neg h, if_neg (fun hh => h hh.1)]

theorem B64_cases {t bs : List Byte} (h : B64 t bs) :
    (t = [] ∧ bs = []) ∨ (∃ a b c d x y z w r bs', sextet a = some x ∧ sextet b = some y ∧
      sextet c = some z ∧ sextet d = some w ∧ B64 r bs' ∧ t = a :: b :: c :: d :: r ∧ bs =
      byteOf (x * 4 + y / 16) :: byteOf (y % 16 * 16 + z / 4) :: byteOf (z % 4 * 64 + w) :: bs') ∨
    (∃ a b c x y z, sextet a = some x ∧ sextet b = some y ∧ sextet c = some z ∧ z % 4 = 0 ∧
      t = [a, b, c, asc '='] ∧ bs = [byteOf (x * 4 + y / 16), byteOf (y % 16 * 16 + z / 4)]) ∨
    (∃ a b x y, sextet a = some x ∧ sextet b = some y ∧ y % 16 = 0 ∧
      t = [a, b, asc '=', asc '='] ∧ bs = [byteOf (x * 4 + y / 16)]) := by
  cases h with
  | nil => exact .inl ⟨rfl, rfl⟩
  | full h1 h2 h3 h4 h5 => exact .inr (.inl ⟨_, _, _, _, _, _, _, _, _, _, h1, h2, h3, h4, h5, rfl, rfl⟩)
  | pad1 h1 h2 h3 h4 => exact .inr (.inr (.inl ⟨_, _, _, _, _, _, h1, h2, h3, h4, rfl, rfl⟩))
  | pad2 h1 h2 h3 => exact .inr (.inr (.inr ⟨_, _, _, _, h1, h2, h3, rfl, rfl⟩))

/-- No base-64 text continues with a non-alphabet, non-`=` character at this place. -/
theorem bad_char {pend pb : List Byte} (hp : Pend pend pb) {c : Byte} {r bs : List Byte}
    (hc : sextet c = none) (he : c ≠ asc '=') : ¬ B64 (pend ++ c :: r) bs := by
  intro h
  rcases B64_cases h with ⟨h, _⟩ | ⟨a, b, c', d, x, y, z, w, r', bs', h1, h2, h3, h4, _, h, _⟩ |
    ⟨a, b, c', x, y, z, h1, h2, h3, _, h, _⟩ | ⟨a, b, x, y, h1, h2, _, h, _⟩ <;>
  cases hp <;> simp at h <;> simp_all

theorem bad_eq01 {pend pb : List Byte} (hp : Pend pend pb) (hl : pend.length < 2)
    {r bs : List Byte} : ¬ B64 (pend ++ asc '=' :: r) bs := by
  have he := eq_not_sextet
  intro h
  rcases B64_cases h with ⟨h, _⟩ | ⟨a, b, c', d, x, y, z, w, r', bs', h1, h2, h3, h4, _, h, _⟩ |
    ⟨a, b, c', x, y, z, h1, h2, h3, _, h, _⟩ | ⟨a, b, x, y, h1, h2, _, h, _⟩ <;>
  cases hp <;> simp at h hl <;> simp_all

theorem pend2_iff {a b : Byte} {x y : Nat} (ha : sextet a = some x) (hb : sextet b = some y)
    (r bs : List Byte) : B64 ([a, b] ++ asc '=' :: r) bs ↔
      r = [asc '='] ∧ y % 16 = 0 ∧ bs = [byteOf (x * 4 + y / 16)] := by
  have he := eq_not_sextet
  constructor
  · intro h
    rcases B64_cases h with ⟨h, _⟩ | ⟨a, b, c', d, x, y, z, w, r', bs', h1, h2, h3, h4, _, h, _⟩ |
      ⟨a, b, c', x, y, z, h1, h2, h3, _, h, _⟩ | ⟨a, b, x, y, h1, h2, h3, h, h4⟩ <;>
    simp at h <;> simp_all
  · rintro ⟨rfl, h, rfl⟩; exact .pad2 ha hb h

theorem pend3_iff {a b c : Byte} {x y z : Nat} (ha : sextet a = some x) (hb : sextet b = some y)
    (hc : sextet c = some z) (r bs : List Byte) : B64 ([a, b, c] ++ asc '=' :: r) bs ↔
      r = [] ∧ z % 4 = 0 ∧ bs = [byteOf (x * 4 + y / 16), byteOf (y % 16 * 16 + z / 4)] := by
  have he := eq_not_sextet
  constructor
  · intro h
    rcases B64_cases h with ⟨h, _⟩ | ⟨a, b, c', d, x, y, z, w, r', bs', h1, h2, h3, h4, _, h, _⟩ |
      ⟨a, b, c', x, y, z, h1, h2, h3, h4, h, h5⟩ | ⟨a, b, x, y, h1, h2, h3, h, h4⟩ <;>
    simp at h <;> simp_all
  · rintro ⟨rfl, h, rfl⟩; exact .pad1 ha hb hc h

theorem short_iff {pend pb : List Byte} (hp : Pend pend pb) (bs : List Byte) :
    B64 pend bs ↔ pend = [] ∧ bs = [] := by
  constructor
  · intro h
    rcases B64_cases h with ⟨h, _⟩ | ⟨a, b, c', d, x, y, z, w, r', bs', h1, h2, h3, h4, _, h, _⟩ |
      ⟨a, b, c', x, y, z, h1, h2, h3, h4, h, h5⟩ | ⟨a, b, x, y, h1, h2, h3, h, h4⟩ <;>
    cases hp <;> simp at h <;> simp_all
  · rintro ⟨rfl, rfl⟩; exact .nil

theorem full_iff {a b c d : Byte} {x y z w : Nat} (ha : sextet a = some x) (hb : sextet b = some y)
    (hc : sextet c = some z) (hd : sextet d = some w) (r bs : List Byte) :
    B64 (a :: b :: c :: d :: r) bs ↔ ∃ bs', bs = byteOf (x * 4 + y / 16) ::
      byteOf (y % 16 * 16 + z / 4) :: byteOf (z % 4 * 64 + w) :: bs' ∧ B64 r bs' := by
  have he := eq_not_sextet
  constructor
  · intro h
    rcases B64_cases h with ⟨h, _⟩ | ⟨a, b, c', d, x, y, z, w, r', bs', h1, h2, h3, h4, _, h, _⟩ |
      ⟨a, b, c', x, y, z, h1, h2, h3, h4, h, h5⟩ | ⟨a, b, x, y, h1, h2, h3, h, h4⟩ <;>
    simp at h <;> simp_all
  · rintro ⟨bs', rfl, h⟩; exact .full ha hb hc hd h

theorem loop_expect (r : List Byte) : ∀ (out pend pb : List Byte) (s : B64State) (junk : List Byte),
    Rep out pend pb s junk → (pend.length + r.length + 3) / 4 * 3 ≤ pb.length + junk.length →
    Expect out pend r (b64Loop r s >>= b64Finish) := by
  induction r with
  | nil =>
    intro out pend pb s junk hr _
    simp only [b64Loop, Res.ok_bind, b64Finish]
    have hsh := short_iff hr.hp
    by_cases h : pend = []
    · subst h
      have hpb : pb = [] := by cases hr.hp; rfl
      subst hpb
      rw [if_neg (by simp [hr.st]), hr.mem, rdN_ok (by simp [hr.idx])]
      simp only [hr.idx, List.append_nil, List.drop_zero, List.length_nil, Nat.zero_sub,
        Nat.add_zero, List.take_left, Res.ok_bind, Res.pure_eq]
      refine ⟨_, rfl, fun bs => ?_⟩
      simp only [Option.some.injEq, List.nil_append, unblank, List.filter_nil]
      constructor
      · rintro rfl; exact ⟨[], by simp, .nil⟩
      · rintro ⟨bs', rfl, h⟩
        rw [((short_iff .p0 _).mp h).2]; simp
    · rw [if_pos (by rw [hr.st]; simpa using h)]
      refine expect_none rfl fun bs hb => h ?_
      simp only [unblank, List.filter_nil, List.append_nil] at hb
      exact ((hsh bs).mp hb).1
  | cons c r ih =>
    intro out pend pb s junk hr hcap
    simp only [b64Loop]
    by_cases hsp : isSpace c = true
    · rw [if_pos hsp]
      obtain ⟨o, h1, h2⟩ := ih out pend pb s junk hr (by simp at hcap; omega)
      exact ⟨o, h1, by rw [unblank_space hsp]; exact h2⟩
    have hsp' : isSpace c = false := by simpa using hsp
    rw [if_neg hsp]
    by_cases heq : c = asc '='
    · rw [if_pos heq]
      subst heq
      simp only [Res.ok_bind, b64Finish, hr.st]
      obtain ⟨hp, hst, hm, hi⟩ := hr
      cases hp with
      | p0 =>
        refine expect_none rfl fun bs => ?_
        rw [unblank_char eq_not_space]
        exact bad_eq01 .p0 (by simp)
      | p1 ha =>
        refine expect_none rfl fun bs => ?_
        rw [unblank_char eq_not_space]
        exact bad_eq01 (.p1 ha) (by simp)
      | @p2 a b x y ha hb =>
        have hu := unblank_dropWhile r
        simp only [List.length_cons, List.length_nil, Nat.zero_add, Nat.reduceAdd] at hi ⊢
        cases hd : r.dropWhile isSpace with
        | nil =>
          refine expect_none rfl fun bs => ?_
          rw [hd] at hu
          rw [unblank_char eq_not_space, pend2_iff ha hb, ← hu]
          simp [unblank]
        | cons e r' =>
          have hes : isSpace e = false := by
            have := List.head?_dropWhile_not isSpace r
            rw [hd] at this; simpa using this
          rw [hd, unblank_char hes] at hu
          simp only
          by_cases hee : e = asc '='
          · subst hee
            rw [if_neg (by simp)]
            rw [tail_spec out [byteOf (x * 4 + y / 16)] ((byteOf y &&& 0x0f) <<< 4) s r' junk (by simpa using hm)
              (by simpa using hi)]
            refine ⟨_, rfl, fun bs => ?_⟩
            simp only [unblank_char eq_not_space, pend2_iff ha hb, ← hu]
            simp only [low4 y (sextet_lt b y hb)]
            by_cases hc : unblank r' = [] ∧ y % 16 = 0
            · rw [if_pos hc]
              simp only [Option.some.injEq, hc, true_and]
              constructor
              · rintro rfl; exact ⟨_, rfl, rfl⟩
              · rintro ⟨_, rfl, rfl⟩; rfl
            · rw [if_neg hc]
              simp only [reduceCtorEq, List.cons.injEq, true_and, false_iff, not_exists, not_and]
              intro bs' _ h1 h2
              exact absurd ⟨h1, h2⟩ hc
          · rw [if_pos hee]
            refine expect_none rfl fun bs => ?_
            rw [unblank_char eq_not_space, pend2_iff ha hb, ← hu]
            simp [hee]
      | @p3 a b c' x y z ha hb hc' =>
        simp only [List.length_cons, List.length_nil, Nat.zero_add, Nat.reduceAdd] at hi ⊢
        rw [tail_spec out [byteOf (x * 4 + y / 16), byteOf (y % 16 * 16 + z / 4)]
          ((byteOf z &&& 0x03) <<< 6) s r junk
          (by simpa using hm) (by simpa using hi)]
        refine ⟨_, rfl, fun bs => ?_⟩
        simp only [unblank_char eq_not_space, pend3_iff ha hb hc']
        simp only [low2 z (sextet_lt c' z hc')]
        by_cases hc : unblank r = [] ∧ z % 4 = 0
        · rw [if_pos hc]
          simp only [Option.some.injEq, hc, true_and]
          constructor
          · rintro rfl; exact ⟨_, rfl, rfl⟩
          · rintro ⟨_, rfl, rfl⟩; rfl
        · rw [if_neg hc]
          simp only [reduceCtorEq, false_iff, not_exists, not_and]
          intro bs' _ h1 h2
          exact absurd ⟨h1, h2⟩ hc
    · rw [if_neg heq]
      rw [b64Index_spec]
      cases hc : sextet c with
      | none =>
        simp only [Option.map_none]
        refine expect_none rfl fun bs => ?_
        rw [unblank_char hsp']
        exact bad_char hr.hp hc heq
      | some v =>
        simp only [Option.map_some]
        obtain ⟨hp, hst, hm, hi⟩ := hr
        obtain ⟨mem, i, st⟩ := s
        simp only at hst hm hi
        subst hst
        -- room for one more byte
        have room : pb.length < 3 → ∃ j0 junk', junk = j0 :: junk' := by
          intro h
          cases junk with
          | nil =>
            exfalso
            cases hp <;> simp at hcap h <;> omega
          | cons j0 j => exact ⟨j0, j, rfl⟩
        simp only [List.length_cons] at hcap
        cases hp with
        | p0 =>
          obtain ⟨j0, junk, rfl⟩ := room (by simp)
          simp only [List.append_nil] at hm
          simp only [List.length_nil, Nat.zero_sub, Nat.add_zero] at hi
          simp only [b64Step, List.length_nil, hm, hi]
          rw [wr_mid _ _ _ _ _ rfl]
          simp only [Res.ok_bind, Res.pure_eq]
          obtain ⟨o, h1, h2⟩ := ih out [c] _ ⟨out ++ byteOf v <<< 2 :: junk, out.length, 1⟩ junk
            ⟨.p1 hc, rfl, by simp, by simp⟩ (by simp at hcap ⊢; omega)
          exact ⟨o, h1, by rw [unblank_char hsp']; simpa using h2⟩
        | @p1 a x ha =>
          obtain ⟨j0, junk, rfl⟩ := room (by simp)
          simp only [List.length_cons, List.length_nil, Nat.zero_add, Nat.sub_self,
            Nat.add_zero] at hi
          have hm' : mem = out ++ (byteOf x <<< 2) :: (j0 :: junk) := by rw [hm]; simp
          simp only [b64Step, List.length_cons, List.length_nil, Nat.zero_add, hm', hi]
          rw [rd_mid' _ _ _ _ rfl]
          simp only [Res.ok_bind]
          rw [wr_mid _ _ _ _ _ rfl]
          simp only [Res.ok_bind]
          rw [byte0 x v (sextet_lt a x ha) (sextet_lt c v hc)]
          rw [show out ++ byteOf (x * 4 + v / 16) :: j0 :: junk =
            (out ++ [byteOf (x * 4 + v / 16)]) ++ j0 :: junk by simp,
            wr_mid _ _ _ _ _ (by simp)]
          simp only [Res.ok_bind, Res.pure_eq]
          obtain ⟨o, h1, h2⟩ := ih out [a, c] _
            ⟨out ++ [byteOf (x * 4 + v / 16)] ++ ((byteOf v &&& 0x0f) <<< 4) :: junk,
              out.length + 1, 2⟩ junk
            ⟨.p2 ha hc, rfl, by simp, by simp⟩ (by simp at hcap ⊢; omega)
          exact ⟨o, h1, by rw [unblank_char hsp']; simpa using h2⟩
        | @p2 a b x y ha hb =>
          obtain ⟨j0, junk, rfl⟩ := room (by simp)
          simp only [List.length_cons, List.length_nil, Nat.zero_add, Nat.reduceAdd,
            Nat.add_one_sub_one] at hi
          have hm' : mem = (out ++ [byteOf (x * 4 + y / 16)]) ++
            ((byteOf y &&& 0x0f) <<< 4) :: (j0 :: junk) := by rw [hm]; simp
          simp only [b64Step, List.length_cons, List.length_nil, Nat.zero_add, Nat.reduceAdd,
            hm', hi]
          rw [rd_mid' _ _ _ _ (by simp)]
          simp only [Res.ok_bind]
          rw [wr_mid _ _ _ _ _ (by simp)]
          simp only [Res.ok_bind]
          rw [byte1 y v (sextet_lt b y hb) (sextet_lt c v hc)]
          rw [show out ++ [byteOf (x * 4 + y / 16)] ++ byteOf (y % 16 * 16 + v / 4) :: j0 :: junk =
            (out ++ [byteOf (x * 4 + y / 16), byteOf (y % 16 * 16 + v / 4)]) ++ j0 :: junk by simp,
            wr_mid _ _ _ _ _ (by simp)]
          simp only [Res.ok_bind, Res.pure_eq]
          obtain ⟨o, h1, h2⟩ := ih out [a, b, c] _
            ⟨out ++ [byteOf (x * 4 + y / 16), byteOf (y % 16 * 16 + v / 4)] ++
              ((byteOf v &&& 0x03) <<< 6) :: junk, out.length + 1 + 1, 3⟩ junk
            ⟨.p3 ha hb hc, rfl, by simp, by simp⟩ (by simp at hcap ⊢; omega)
          exact ⟨o, h1, by rw [unblank_char hsp']; simpa using h2⟩
        | @p3 a b c' x y z ha hb hc' =>
          simp only [List.length_cons, List.length_nil, Nat.zero_add, Nat.reduceAdd,
            Nat.add_one_sub_one] at hi
          have hm' : mem = (out ++ [byteOf (x * 4 + y / 16), byteOf (y % 16 * 16 + z / 4)]) ++
            ((byteOf z &&& 0x03) <<< 6) :: junk := by rw [hm]; simp
          simp only [b64Step, List.length_cons, List.length_nil, Nat.zero_add, Nat.reduceAdd,
            hm', hi]
          rw [rd_mid' _ _ _ _ (by simp)]
          simp only [Res.ok_bind]
          rw [wr_mid _ _ _ _ _ (by simp)]
          simp only [Res.ok_bind, Res.pure_eq]
          rw [byte2 z v (sextet_lt c' z hc') (sextet_lt c v hc)]
          obtain ⟨o, h1, h2⟩ := ih (out ++ [byteOf (x * 4 + y / 16), byteOf (y % 16 * 16 + z / 4),
              byteOf (z % 4 * 64 + v)]) [] []
            ⟨out ++ [byteOf (x * 4 + y / 16), byteOf (y % 16 * 16 + z / 4)] ++
              byteOf (z % 4 * 64 + v) :: junk, out.length + 2 + 1, 0⟩ junk
            ⟨.p0, rfl, by simp, by simp⟩ (by simp at hcap ⊢; omega)
          refine ⟨o, h1, fun bs => (h2 bs).trans ?_⟩
          rw [unblank_char hsp']
          simp only [List.nil_append, List.cons_append, full_iff ha hb hc' hc]
          constructor
          · rintro ⟨bs', rfl, h⟩; exact ⟨_, by simp, bs', rfl, h⟩
          · rintro ⟨_, rfl, bs', rfl, h⟩; exact ⟨bs', by simp, h⟩

theorem base64Decode_eq (junk : Nat → Byte) (s : List Byte) :
    base64Decode junk s = if s.length = 0 then .ok none else
      (b64Loop s ⟨(List.range ((s.length + 3) / 4 * 3)).map junk, 0, 0⟩ >>= b64Finish) := rfl

end Wizard
