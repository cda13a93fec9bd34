import Verif.Model.BlobLife
import Verif.Lemmas.Res
/-! C162: what a blob holds is released once. -/
namespace Wizard.Props

/-- Each thing is released as often as it is acquired. -/
def LifeBalanced (ev : List LifeEvent) : Prop := ∀ h, ev.count (.gave h) = ev.count (.got h)

/-- Never more released than acquired, at any moment. -/
def NeverTwice (ev : List LifeEvent) : Prop := ∀ h n, (ev.take n).count (.gave h) ≤ (ev.take n).count (.got h)

/-- What a blob will release when it is closed. -/
def lifeHeld (b : LifeBlob) : List LifeEvent := (closeLife b).2

/-- The blob is closed already, or will be by `CloseBlob`. -/
def LifeOpen (b : LifeBlob) : Prop := b.exempt = false ∧ (b.type = .undefined → b.mapped = false)

theorem life_closed (b : LifeBlob) (h : LifeOpen b) :
    LifeOpen (closeLife b).1 ∧ (closeLife b).1.type = .undefined ∧ (closeLife (closeLife b).1).2 = [] ∧ (closeLife b).1.mapped = false := by
  obtain ⟨he, hm⟩ := h
  unfold closeLife
  by_cases ht : b.type = .undefined
  · simp [ht, LifeOpen, he, hm ht]
  · simp [ht, he, LifeOpen, detachLife]

theorem life_run : ∀ (ops : List LifeOp) (b : LifeBlob), LifeOpen b → (b.mapped = true → .extend ∉ ops) →
    lifeRun b ops = lifeHeld b ++ [.gave .semaphore, .gave .memory] := by
  intro ops
  induction ops with
  | nil =>
    intro b hb _
    have h := life_closed b hb
    simp [lifeRun, destroyLife, lifeHeld, h.2.2.2]
  | cons o ops ih =>
    intro b hb hx
    unfold lifeRun
    cases o with
    | use =>
      rw [show lifeStep b .use = (b, []) from rfl, ih b hb fun m h => hx m (List.mem_cons_of_mem _ h)]
      rfl
    | extend =>
      have hm : b.mapped = false := by
        cases h : b.mapped with
        | false => rfl
        | true => exact absurd List.mem_cons_self (hx h)
      rw [show lifeStep b .extend = (b, []) by simp [lifeStep, extendLife, hm], ih b hb fun m _ => by simp [hm] at m]
      rfl
    | close =>
      have h := life_closed b hb
      rw [show lifeStep b .close = closeLife b from rfl, ih _ h.1 fun m _ => by simp [h.2.2.2] at m]
      simp [lifeHeld, h.2.2.1]

/-- A regular file, that can be opened. -/
def Regular : BlobSource → Prop
  | .reads opens _ packed unpacks _ _ => opens = true ∧ (packed = true → unpacks = true)
  | .writes _ opens => opens = true
  | _ => False

/-- The file is read through a map. -/
def ReadsMap : BlobSource → Prop
  | .reads _ size packed _ granted maps => packed = false ∧ size > maxBufferExtent ∧ granted = true ∧ maps = true
  | _ => False

theorem regular_life (src : BlobSource) (ops : List LifeOp) (h : Regular src) (hx : ReadsMap src → .extend ∉ ops) :
    ∃ b ev, openLife src = .ok (some b, ev) ∧ blobLife src ops = .ok (ev ++ (lifeHeld b ++ [.gave .semaphore, .gave .memory])) := by
  have key : ∃ b ev, openLife src = .ok (some b, ev) ∧ LifeOpen b ∧ (b.mapped = true → ReadsMap src) := by
    cases src with
    | reads opens size packed unpacks granted maps =>
      obtain ⟨ho, hp⟩ := h
      subst ho
      cases packed with
      | true => simp [openLife, hp rfl, LifeOpen]
      | false =>
        unfold openLife openMap
        by_cases hs : size > maxBufferExtent ∧ granted
        · cases maps
          · simp [hs, LifeOpen]
          · simp [hs, LifeOpen, ReadsMap]
        · simp only [if_neg hs]; simp [LifeOpen]
    | writes packed opens => cases packed <;> simp [openLife, show opens = true from h, LifeOpen]
    | _ => exact absurd h (by simp [Regular])
  obtain ⟨b, ev, ho, hb, hm⟩ := key
  refine ⟨b, ev, ho, ?_⟩
  show (openLife src >>= _) = _
  simp only [ho, Res.ok_bind, life_run ops b hb fun m => hx (hm m)]

/-- A list of events, from a state in which `acc` is held. -/
def lifeSafe (acc : List Handle) : List LifeEvent → Prop
  | [] => acc = []
  | .got h :: ev => lifeSafe (h :: acc) ev
  | .gave h :: ev => h ∈ acc ∧ lifeSafe (acc.erase h) ev

theorem safe_counts : ∀ (ev : List LifeEvent) (acc : List Handle), lifeSafe acc ev →
    (∀ h, ev.count (.gave h) = acc.count h + ev.count (.got h)) ∧
    ∀ h n, (ev.take n).count (.gave h) ≤ acc.count h + (ev.take n).count (.got h) := by
  intro ev
  induction ev with
  | nil => intro acc h; subst h; simp
  | cons e ev ih =>
    intro acc hs
    cases e with
    | got k =>
      have t := ih _ hs
      refine ⟨fun h => ?_, fun h n => ?_⟩
      · have := t.1 h
        simp only [List.count_cons] at this ⊢
        by_cases hk : k = h <;> simp_all <;> omega
      · cases n with
        | zero => simp
        | succ n =>
          have := t.2 h n
          simp only [List.take_succ_cons, List.count_cons] at this ⊢
          by_cases hk : k = h <;> simp_all <;> omega
    | gave k =>
      obtain ⟨hm, hs⟩ := hs
      have t := ih _ hs
      have hp := List.count_pos_iff.mpr hm
      refine ⟨fun h => ?_, fun h n => ?_⟩
      · have := t.1 h
        simp only [List.count_cons, List.count_erase] at this ⊢
        by_cases hk : k = h
        · subst hk; simp at this ⊢; omega
        · simp [hk] at this ⊢; omega
      · cases n with
        | zero => simp
        | succ n =>
          have := t.2 h n
          simp only [List.take_succ_cons, List.count_cons, List.count_erase] at this ⊢
          by_cases hk : k = h
          · subst hk; simp at this ⊢; omega
          · simp [hk] at this ⊢; omega

/-- **C162** (partial: regular files; a file read through a map must not be extended.)  Whatever a client does with it, however often it is
closed, everything that was acquired for a regular file is released once: its memory, semaphore, `FILE` pointer or compressed stream, its
map and the share of the map resource; and never more than was acquired. -/
theorem C162_partial (src : BlobSource) (ops : List LifeOp) (h : Regular src) (hx : ReadsMap src → .extend ∉ ops) :
    (blobLife src ops).Ok fun ev => LifeBalanced ev ∧ NeverTwice ev := by
  obtain ⟨b, ev, ho, hl⟩ := regular_life src ops h hx
  refine ⟨_, hl, ?_⟩
  have key : lifeSafe [] (ev ++ (lifeHeld b ++ [.gave .semaphore, .gave .memory])) := by
    cases src with
    | reads opens size packed unpacks granted maps =>
      obtain ⟨h1, hp⟩ := h
      subst h1
      cases packed with
      | true =>
        simp only [openLife, hp rfl] at ho
        cases ho
        simp [lifeHeld, closeLife, closedStream, detachLife, lifeSafe]
      | false =>
        simp only [openLife, openMap] at ho
        by_cases hs : size > maxBufferExtent ∧ granted
        · cases maps <;> simp [hs] at ho <;> obtain ⟨rfl, rfl⟩ := ho <;> simp [lifeHeld, closeLife, closedStream, detachLife, lifeSafe]
        · simp only [if_neg hs] at ho
          cases ho
          simp [lifeHeld, closeLife, closedStream, detachLife, lifeSafe]
    | writes packed opens =>
      have h1 : opens = true := h
      subst h1
      cases packed <;> simp [openLife] at ho <;> obtain ⟨rfl, rfl⟩ := ho <;> simp [lifeHeld, closeLife, closedStream, detachLife, lifeSafe]
    | _ => exact absurd h (by simp [Regular])
  have := safe_counts _ _ key
  exact ⟨fun k => by simpa using this.1 k, fun k n => by simpa using this.2 k n⟩

theorem exempt_run : ∀ (ops : List LifeOp) (b : LifeBlob), b.exempt = true → b.mapped = false →
    lifeRun b ops = [.gave .semaphore, .gave .memory] := by
  intro ops
  induction ops with
  | nil =>
    intro b he hm
    by_cases ht : b.type = .undefined <;> simp [lifeRun, destroyLife, closeLife, he, hm, ht]
  | cons o ops ih =>
    intro b he hm
    unfold lifeRun
    cases o with
    | use => simp [lifeStep, ih b he hm]
    | extend => simp [lifeStep, extendLife, hm, ih b he hm]
    | close =>
      by_cases ht : b.type = .undefined
      · simp [lifeStep, closeLife, ht, ih b he hm]
      · have := ih { b with type := .undefined } he hm
        simpa [lifeStep, closeLife, ht, he] using this

/-- **C162** (partial: standard input and output.)  They are left open, and everything acquired is released. -/
theorem C162_standard_partial (ops : List LifeOp) : (blobLife .standard ops).Ok fun ev => LifeBalanced ev ∧ NeverTwice ev := by
  refine ⟨[.got .memory, .got .semaphore, .gave .semaphore, .gave .memory], ?_, ?_⟩
  · simp [blobLife, openLife, exempt_run, Res.ok_bind]
  · have := safe_counts [.got .memory, .got .semaphore, .gave .semaphore, .gave .memory] [] (by simp [lifeSafe])
    exact ⟨fun k => by simpa using this.1 k, fun k n => by simpa using this.2 k n⟩

/-- **C162** (violated) A command, a named pipe or a descriptor is opened, and whatever the client does, it is never closed: `OpenBlob` marks
the stream as not to be closed.  A command that reads from the toolkit never sees the end of its input, is not waited for, and nobody is
told whether it succeeded. -/
theorem C162_exempt_violated (ops : List LifeOp) :
    ((blobLife (.command true) ops).Ok fun ev => .got .command ∈ ev ∧ .gave .command ∉ ev) ∧
    ((blobLife (.fifo true) ops).Ok fun ev => .got .stream ∈ ev ∧ .gave .stream ∉ ev) ∧
    ((blobLife (.descriptor true) ops).Ok fun ev => .got .stream ∈ ev ∧ .gave .stream ∉ ev) := by
  refine ⟨⟨[.got .memory, .got .semaphore, .got .command, .gave .semaphore, .gave .memory], ?_, by simp⟩,
    ⟨[.got .memory, .got .semaphore, .got .stream, .gave .semaphore, .gave .memory], ?_, by simp⟩,
    ⟨[.got .memory, .got .semaphore, .got .stream, .gave .semaphore, .gave .memory], ?_, by simp⟩⟩
  all_goals simp [blobLife, openLife, exempt_run, Res.ok_bind]

/-- **C162** (violated) Each time a file cannot be opened, a semaphore is lost. -/
theorem C162_failed_violated (ops : List LifeOp) (src : BlobSource)
    (h : src = .descriptor false ∨ src = .command false ∨ src = .fifo false ∨ (∃ n p u g m, src = .reads false n p u g m) ∨ ∃ p, src = .writes p false) :
    (blobLife src ops).Ok fun ev => .got .semaphore ∈ ev ∧ .gave .semaphore ∉ ev := by
  refine ⟨[.got .memory, .got .semaphore, .gave .memory], ?_, by simp⟩
  rcases h with rfl | rfl | rfl | ⟨n, p, u, g, m, rfl⟩ | ⟨p, rfl⟩ <;> simp [blobLife, openLife, openFailed, Res.ok_bind]

/-- **C162** (violated) When a file that is read through a map is to be extended, it is refused, but the map and the share of the map resource
are released, and again by `CloseBlob`: other maps may have taken that place, and the toolkit grants more than its limit.  For every
large file. -/
theorem C162_extend_violated (size : Nat) (h : size > maxBufferExtent) :
    (blobLife (.reads true size false false true true) [.extend, .close]).Ok fun ev =>
      ev.count (.got (.share size)) = 1 ∧ ev.count (.gave (.share size)) = 2 ∧
      ev.count (.got (.map size)) = 1 ∧ ev.count (.gave (.map size)) = 2 := by
  refine ⟨[.got .memory, .got .semaphore, .got .stream, .got (.share size), .got (.map size), .gave .stream, .gave (.map size),
    .gave (.share size), .gave (.map size), .gave (.share size), .gave .semaphore, .gave .memory], ?_, by simp⟩
  simp [blobLife, openLife, openMap, h, Res.ok_bind, lifeRun, lifeStep, extendLife, closeLife, closedStream, detachLife, destroyLife]

/-- **C162** (violated) A compressed file is closed and opened again for decompression; if that fails, for want of descriptors or memory,
`fileno` is called with NULL. -/
theorem C162_packed_violated (size : Nat) (granted maps : Bool) (ops : List LifeOp) :
    blobLife (.reads true size true false granted maps) ops = .ub := by
  simp [blobLife, openLife]

example : Regular (.reads true 9000 false false true true) ∧ ReadsMap (.reads true 9000 false false true true) ∧
    LifeOp.extend ∉ [LifeOp.use, .close, .close] := by
  refine ⟨⟨rfl, nofun⟩, ⟨rfl, by decide, rfl, rfl⟩, by decide⟩

end Wizard.Props
