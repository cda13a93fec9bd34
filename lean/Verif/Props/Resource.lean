import Verif.Spec.Resource
/-! C47, C48, C81: resource limits. -/
namespace Wizard.Props
open Wizard Wizard.Spec.Ledger

/-- The counters agree with the books. -/
structure Agree (s : ResourceInfo) (b : Books) : Prop where
  used : ∀ t, t ≠ .area → s.used t = b.used t ∧ b.used t < 2 ^ 63
  limit : ∀ t, (s.limit t = resourceInfinity ∧ b.limit t = none) ∨ (s.limit t < 2 ^ 63 ∧ b.limit t = some (s.limit t))

theorem signed64_small {x : Int} (h0 : -2 ^ 63 ≤ x) (h1 : x < 2 ^ 63) : signed64 x = x := by
  unfold signed64
  omega

theorem acquire_other {s : ResourceInfo} {t : Resource} (ht : t ≠ .area) (size : Nat) : acquireResource s t size =
    if s.limit t = resourceInfinity ∨ signed64 (s.used t + size) < signed64 (s.limit t) then .ok (true, s.setUsed t (signed64 (s.used t + size)))
    else if signed64 (s.used t + size) - signed64 size < -2 ^ 63 ∨ 2 ^ 63 ≤ signed64 (s.used t + size) - signed64 size then .ub
    else .ok (false, s.setUsed t (signed64 (s.used t + size) - signed64 size)) := by
  cases t <;> first | exact absurd rfl ht | rfl

theorem relinquish_other {s : ResourceInfo} {t : Resource} (ht : t ≠ .area) (size : Nat) : relinquishResource s t size =
    if signed64 (s.used t - size) < 0 then .ub else .ok (s.setUsed t (signed64 (s.used t - size))) := by
  cases t <;> first | exact absurd rfl ht | rfl

theorem setUsed_self (s : ResourceInfo) (t : Resource) : s.setUsed t (s.used t) = s := by
  unfold ResourceInfo.setUsed
  have : (fun x => if x = t then s.used t else s.used x) = s.used := by
    funext x
    by_cases h : x = t
    · rw [if_pos h, h]
    · rw [if_neg h]
  rw [this]

theorem step_agree {s : ResourceInfo} {b : Books} (h : Agree s b) (op : ROp) (hf : b.Fits [op]) :
    ∃ s', exec s op = .ok ((b.step op).1, s') ∧ Agree s' (b.step op).2 := by
  have hinf : resourceInfinity = 2 ^ 64 - 1 := rfl
  cases op with
  | acquire t size =>
    obtain ⟨⟨ht, hsz⟩, _⟩ := hf
    obtain ⟨hu, hub⟩ := h.used t ht
    have hc : signed64 (s.used t + size) = ((b.used t + size : Nat) : Int) := by rw [hu, signed64_small (by omega) (by omega)]; omega
    have hz : signed64 (size : Int) = size := signed64_small (by omega) (by omega)
    show ∃ s', acquireResource s t size = _ ∧ _
    rw [acquire_other ht, hc, hz]
    have hgr : b.grants t size = decide (s.limit t = resourceInfinity ∨ ((b.used t + size : Nat) : Int) < signed64 (s.limit t)) := by
      unfold Books.grants
      rcases h.limit t with ⟨h1, h2⟩ | ⟨h1, h2⟩
      · rw [h2, h1]; simp
      · rw [h2, signed64_small (by omega) (by omega)]
        rw [decide_eq_decide]
        omega
    simp only [Books.step]
    by_cases hg : s.limit t = resourceInfinity ∨ ((b.used t + size : Nat) : Int) < signed64 (s.limit t)
    · rw [if_pos hg]
      rw [if_pos (by rw [hgr]; exact decide_eq_true hg)]
      refine ⟨_, rfl, ?_, h.limit⟩
      intro x hx
      show (if x = t then ((b.used t + size : Nat) : Int) else s.used x) = ((if x = t then b.used t + size else b.used x : Nat) : Int) ∧ (if x = t then b.used t + size else b.used x) < 2 ^ 63
      by_cases hxt : x = t
      · simp only [if_pos hxt]; exact ⟨trivial, hsz⟩
      · simp only [if_neg hxt]; exact h.used x hx
    · rw [if_neg hg, if_neg (by omega)]
      rw [if_neg (by rw [hgr]; simpa using hg)]
      have : ((b.used t + size : Nat) : Int) - size = s.used t := by rw [hu]; omega
      rw [this, setUsed_self]
      exact ⟨_, rfl, h⟩
  | release t size =>
    obtain ⟨⟨ht, hsz⟩, _⟩ := hf
    obtain ⟨hu, hub⟩ := h.used t ht
    have hc : signed64 (s.used t - size) = ((b.used t - size : Nat) : Int) := by rw [hu, signed64_small (by omega) (by omega)]; omega
    simp only [exec]
    rw [relinquish_other ht, hc, if_neg (by omega), Res.ok_bind]
    refine ⟨_, rfl, ?_, h.limit⟩
    intro x hx
    show (if x = t then ((b.used t - size : Nat) : Int) else s.used x) = ((if x = t then b.used t - size else b.used x : Nat) : Int) ∧ (if x = t then b.used t - size else b.used x) < 2 ^ 63
    by_cases hxt : x = t
    · simp only [if_pos hxt]; exact ⟨trivial, by omega⟩
    · simp only [if_neg hxt]; exact h.used x hx
  | setLimit t l =>
    obtain ⟨hl, _⟩ := hf
    refine ⟨_, rfl, h.used, ?_⟩
    intro x
    show ((if x = t then l else s.limit x) = resourceInfinity ∧ (if x = t then (if l = resourceInfinity then none else some l) else b.limit x) = none) ∨
      ((if x = t then l else s.limit x) < 2 ^ 63 ∧ (if x = t then (if l = resourceInfinity then none else some l) else b.limit x) = some (if x = t then l else s.limit x))
    by_cases hxt : x = t
    · simp only [if_pos hxt]
      rcases hl with hl | hl
      · have : l < 2 ^ 63 := hl
        rw [if_neg (by omega)]
        exact Or.inr ⟨hl, rfl⟩
      · rw [if_pos hl]
        exact Or.inl ⟨hl, rfl⟩
    · simp only [if_neg hxt]; exact h.limit x

theorem run_agree (ops : List ROp) : ∀ {s : ResourceInfo} {b : Books}, Agree s b → b.Fits ops →
    ∃ s', run s ops = .ok ((b.run ops).1, s') ∧ Agree s' (b.run ops).2 := by
  induction ops with
  | nil => intro s b h _; exact ⟨s, rfl, h⟩
  | cons op ops ih =>
    intro s b h hf
    obtain ⟨s1, e1, a1⟩ := step_agree h op ⟨hf.1, trivial⟩
    obtain ⟨s2, e2, a2⟩ := ih a1 hf.2
    refine ⟨s2, ?_, a2⟩
    rw [run, e1, Res.ok_bind]
    simp only []
    rw [e2, Res.ok_bind]
    rfl

theorem initial_agree : Agree initialResources Books.initial := by
  constructor
  · intro t _
    exact ⟨rfl, by show 0 < 2 ^ 63; omega⟩
  · intro t
    cases t <;> simp [initialResources, Books.initial, resourceInfinity]

/-- **C47, C48**, for amounts and finite limits below 2^63: for every history of acquisitions, releases of what is in use and
changes of limits, every request is granted exactly if with it the amount in use stays below the limit, nothing aborts, and the
amount reported at the end is the amount in use.  Missing: larger amounts and limits, where it fails (`C48_request_violated`,
`C48_limit_violated`), and the area resource (`C47_area_violated`). -/
theorem C47_books_partial (ops : List ROp) (hf : Books.initial.Fits ops) :
    ∃ s, run initialResources ops = .ok ((Books.initial.run ops).1, s) ∧
      ∀ t, t ≠ .area → getResource s t = (Books.initial.run ops).2.used t := by
  obtain ⟨s, h1, h2⟩ := run_agree ops initial_agree hf
  refine ⟨s, h1, ?_⟩
  intro t ht
  have := h2.used t ht
  unfold getResource
  omega

-- a history with a refusal, a release and a new limit
example : let ops : List ROp := [.acquire .memory 1610612735, .acquire .memory 1, .release .memory 5, .setLimit .memory 10, .acquire .memory 1,
      .acquire .disk (2 ^ 62)]
    Books.initial.Fits ops ∧ (Books.initial.run ops).1 = [true, false, true, true, false, true] ∧
      (Books.initial.run ops).2.used .memory = 1610612730 := by
  refine ⟨?_, by decide, by decide⟩
  simp [Books.Fits, Books.step, Books.initial, Books.grants, initialResources, resourceInfinity]

/-- The books never show more in use than the limit allows, while the limits stay as they are. -/
theorem books_below_limit (ops : List ROp) (hs : ∀ op ∈ ops, ∀ t l, op ≠ .setLimit t l) : ∀ (b : Books) (t : Resource) (l : Nat),
    b.limit t = some l → (b.used t = 0 ∨ b.used t < l) → (b.run ops).2.used t = 0 ∨ (b.run ops).2.used t < l := by
  induction ops with
  | nil => intro b t l _ h; exact h
  | cons op ops ih =>
    intro b t l hl h
    have hs' := fun x hx => hs x (List.mem_cons_of_mem _ hx)
    have h0 := hs op (List.mem_cons_self ..)
    simp only [Books.run]
    cases op with
    | setLimit t' l' => exact absurd rfl (h0 t' l')
    | acquire t' size =>
      simp only [Books.step]
      by_cases hg : b.grants t' size = true
      · rw [if_pos hg]
        refine ih hs' _ t l ?_ ?_
        · exact hl
        show (if t = t' then b.used t' + size else b.used t) = 0 ∨ (if t = t' then b.used t' + size else b.used t) < l
        by_cases e : t = t'
        · subst e
          rw [if_pos rfl]
          unfold Books.grants at hg
          rw [hl] at hg
          exact Or.inr (of_decide_eq_true hg)
        · rw [if_neg e]; exact h
      · rw [if_neg hg]
        exact ih hs' _ t l hl h
    | release t' size =>
      refine ih hs' _ t l ?_ ?_
      · exact hl
      show (if t = t' then b.used t' - size else b.used t) = 0 ∨ (if t = t' then b.used t' - size else b.used t) < l
      by_cases e : t = t'
      · rw [if_pos e]; subst e; omega
      · rw [if_neg e]; exact h

/-- **C48**, for amounts below 2^63: after any history without changes of limits, the amount the library reports for a resource with
a finite limit is below its limit.  Missing as in `C47_books_partial`. -/
theorem C48_below_limit_partial (ops : List ROp) (hf : Books.initial.Fits ops) (hs : ∀ op ∈ ops, ∀ t l, op ≠ .setLimit t l) :
    ∃ rs s, run initialResources ops = .ok (rs, s) ∧ ∀ t, t ≠ .area → t ≠ .disk → getResource s t < getResourceLimit s t := by
  obtain ⟨s, h1, h2⟩ := run_agree ops initial_agree hf
  refine ⟨_, s, h1, ?_⟩
  intro t ht hd
  have hl : ∀ (b : Books), (b.run ops).2.limit = b.limit := by
    clear h1 h2 hf
    induction ops with
    | nil => intro b; rfl
    | cons op ops ih =>
      intro b
      have h0 := hs op (List.mem_cons_self ..)
      have := ih (fun x hx => hs x (List.mem_cons_of_mem _ hx)) (b.step op).2
      simp only [Books.run]
      rw [this]
      cases op with
      | setLimit t' l' => exact absurd rfl (h0 t' l')
      | acquire t' size =>
        simp only [Books.step]
        by_cases hg : b.grants t' size = true
        · rw [if_pos hg]
        · rw [if_neg hg]
      | release t' size => rfl
  have hlim : Books.initial.limit t = some (initialResources.limit t) := by
    unfold Books.initial
    simp only [if_neg hd]
  have h3 := books_below_limit ops hs Books.initial t _ hlim (Or.inl rfl)
  have h4 := h2.used t ht
  have h5 := h2.limit t
  rw [hl, hlim] at h5
  have h6 : 0 < initialResources.limit t := by cases t <;> decide
  have h7 : initialResources.limit t = s.limit t := by
    rcases h5 with ⟨_, h⟩ | ⟨_, h⟩
    · cases h
    · exact Option.some.inj h
  unfold getResource getResourceLimit
  omega

theorem run_cons {s s' : ResourceInfo} {op : ROp} {ops : List ROp} {rs : List Bool} (h : run s (op :: ops) = .ok (rs, s')) :
    ∃ r s1 rs', exec s op = .ok (r, s1) ∧ run s1 ops = .ok (rs', s') ∧ rs = r :: rs' := by
  rw [run] at h
  cases h1 : exec s op with
  | ub => rw [h1] at h; cases h
  | fatal => rw [h1] at h; cases h
  | ok r =>
    rw [h1, Res.ok_bind] at h
    cases h2 : run r.2 ops with
    | ub => rw [h2] at h; cases h
    | fatal => rw [h2] at h; cases h
    | ok o =>
      rw [h2, Res.ok_bind] at h
      cases h
      exact ⟨r.1, r.2, o.1, rfl, h2, rfl⟩

/-- **C47**: whatever the requests, releases and limits are, as long as nothing aborts, the amount reported for a resource other
than the area is what it was, plus what was granted, less what was released, in 64-bit arithmetic; in particular a refused
request changes nothing, and requests for one resource do not affect another. -/
theorem C47_sum (ops : List ROp) (t : Resource) (ht : t ≠ .area) : ∀ (s s' : ResourceInfo) (rs : List Bool), run s ops = .ok (rs, s') →
    (getResource s' t : Int) = (getResource s t + granted t ops rs - released t ops) % 2 ^ 64 := by
  induction ops with
  | nil =>
    intro s s' rs h
    cases h
    unfold getResource
    simp only [granted, released]
    omega
  | cons op ops ih =>
    intro s s' rs h
    obtain ⟨r, s1, rs', e1, e2, rfl⟩ := run_cons h
    have := ih s1 s' rs' e2
    cases op with
    | setLimit t' l =>
      cases e1
      exact this
    | release t' size =>
      simp only [exec] at e1
      simp only [granted, released]
      by_cases ha : t' = .area
      · subst ha
        rw [if_neg (fun e => ht e.symm)]
        have e1 : Res.ok (true, s.setUsed .area (signed64 size)) = .ok (r, s1) := e1
        cases e1
        have hg : getResource (s.setUsed .area (signed64 size)) t = getResource s t := by
          unfold getResource ResourceInfo.setUsed
          simp only [if_neg ht]
        rw [hg] at this
        omega
      · rw [relinquish_other ha] at e1
        by_cases hc : signed64 (s.used t' - size) < 0
        · rw [if_pos hc] at e1; cases e1
        · rw [if_neg hc] at e1
          cases e1
          by_cases e : t' = t
          · subst e
            rw [if_pos rfl]
            have hg : (getResource (s.setUsed t' (signed64 (s.used t' - size))) t' : Int) = (getResource s t' - size) % 2 ^ 64 := by
              unfold getResource ResourceInfo.setUsed signed64
              simp only [if_true]
              omega
            rw [hg] at this
            omega
          · rw [if_neg e]
            have hg : getResource (s.setUsed t' (signed64 (s.used t' - size))) t = getResource s t := by
              unfold getResource ResourceInfo.setUsed
              simp only [if_neg (fun x : t = t' => e x.symm)]
            rw [hg] at this
            omega
    | acquire t' size =>
      simp only [exec] at e1
      simp only [granted, released]
      by_cases ha : t' = .area
      · subst ha
        rw [if_neg (fun e => ht e.1.symm)]
        have e1 : Res.ok (_, s.setUsed .area (signed64 size)) = .ok (r, s1) := e1
        cases e1
        have hg : getResource (s.setUsed .area (signed64 size)) t = getResource s t := by
          unfold getResource ResourceInfo.setUsed
          simp only [if_neg ht]
        rw [hg] at this
        omega
      · rw [acquire_other ha] at e1
        have other : ∀ v, t' ≠ t → getResource (s.setUsed t' v) t = getResource s t := by
          intro v e
          unfold getResource ResourceInfo.setUsed
          simp only [if_neg (fun x : t = t' => e x.symm)]
        by_cases hc : s.limit t' = resourceInfinity ∨ signed64 (s.used t' + size) < signed64 (s.limit t')
        · rw [if_pos hc] at e1
          cases e1
          by_cases e : t' = t
          · subst e
            rw [if_pos ⟨rfl, rfl⟩]
            have hg : (getResource (s.setUsed t' (signed64 (s.used t' + size))) t' : Int) = (getResource s t' + size) % 2 ^ 64 := by
              unfold getResource ResourceInfo.setUsed signed64
              simp only [if_true]
              omega
            rw [hg] at this
            omega
          · rw [if_neg (fun x => e x.1)]
            rw [other _ e] at this
            omega
        · rw [if_neg hc] at e1
          by_cases hd : signed64 (s.used t' + size) - signed64 size < -2 ^ 63 ∨ 2 ^ 63 ≤ signed64 (s.used t' + size) - signed64 size
          · rw [if_pos hd] at e1; cases e1
          · rw [if_neg hd] at e1
            cases e1
            rw [if_neg (fun x => Bool.noConfusion x.2)]
            by_cases e : t' = t
            · subst e
              have hg : getResource (s.setUsed t' (signed64 (s.used t' + size) - signed64 size)) t' = getResource s t' := by
                unfold getResource ResourceInfo.setUsed signed64
                simp only [if_true]
                omega
              rw [hg] at this
              omega
            · rw [other _ e] at this
              omega

/-- **C48 is false** for large requests: whatever the limit, a request with which the amount in use reaches 2^63 (and stays below
2^64) is granted, because the sum is compared as a signed number (resource.c:428). -/
theorem C48_request_violated (s : ResourceInfo) (t : Resource) (ht : t ≠ .area) (u size : Nat) (hu : s.used t = u) (hu63 : u < 2 ^ 63)
    (hl : s.limit t < 2 ^ 63) (h1 : 2 ^ 63 ≤ u + size) (h2 : u + size < 2 ^ 64) :
    ∃ s', acquireResource s t size = .ok (true, s') ∧ s.limit t ≤ getResource s' t := by
  have hc : signed64 (s.used t + size) = u + size - 2 ^ 64 := by rw [hu]; unfold signed64; omega
  rw [acquire_other ht, hc, signed64_small (x := (s.limit t : Int)) (by omega) (by omega), if_pos (Or.inr (by omega))]
  refine ⟨_, rfl, ?_⟩
  unfold getResource ResourceInfo.setUsed
  simp only [if_true]
  omega

-- nothing in use, the default limit of the memory resource
example : initialResources.used .memory = (0 : Nat) ∧ initialResources.limit .memory < 2 ^ 63 := ⟨rfl, by decide⟩

/-- **C48 is false** for large limits: under a limit of 2^63 or more that is not "unlimited" no request below 2^63 is ever
granted, because the limit is compared as a signed number (resource.c:428). -/
theorem C48_limit_violated (s : ResourceInfo) (t : Resource) (ht : t ≠ .area) (u size : Nat) (hu : s.used t = u)
    (hl : 2 ^ 63 ≤ s.limit t) (hl' : s.limit t < resourceInfinity) (h : u + size < 2 ^ 63) :
    acquireResource s t size = .ok (false, s) ∧ u + size < s.limit t := by
  have hinf : resourceInfinity = 2 ^ 64 - 1 := rfl
  have hc : signed64 (s.used t + size) = u + size := by rw [hu]; unfold signed64; omega
  have hz : signed64 (size : Int) = size := signed64_small (by omega) (by omega)
  have hlim : signed64 (s.limit t : Int) = s.limit t - 2 ^ 64 := by unfold signed64; omega
  refine ⟨?_, by omega⟩
  rw [acquire_other ht, hc, hz, hlim, if_neg (by omega), if_neg (by omega)]
  have : (u : Int) + size - size = s.used t := by rw [hu]; omega
  rw [this, setUsed_self]

example : (setResourceLimit initialResources .memory (2 ^ 63)).limit .memory = 2 ^ 63 := rfl

/-- **C47 is false** for the area resource: a refused request replaces the amount in use by the amount refused, and a release
replaces it by the amount released (resource.c:410, 758). -/
theorem C47_area_violated (s : ResourceInfo) (size : Nat) (h : size < 2 ^ 64) :
    (s.limit .area ≤ size → s.limit .area ≠ resourceInfinity → ∃ s', acquireResource s .area size = .ok (false, s') ∧ getResource s' .area = size) ∧
    (∃ s', relinquishResource s .area size = .ok s' ∧ getResource s' .area = size) := by
  have hg : getResource (s.setUsed .area (signed64 size)) .area = size := by
    unfold getResource ResourceInfo.setUsed signed64
    simp only [if_true]
    omega
  refine ⟨?_, ⟨_, rfl, hg⟩⟩
  intro h1 h2
  refine ⟨_, ?_, hg⟩
  show Res.ok (decide (s.limit .area = resourceInfinity ∨ size < s.limit .area), _) = _
  rw [decide_eq_false (by omega)]

end Wizard.Props
