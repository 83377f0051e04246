import Verif.Spec.EvSrc
/-
C27: event counters.  C69: relative times of timers.
-/
namespace Sid.Props
open Sid.Ev Sid.Spec.Ev

/-- the source has this budget -/
structure RelEv (s : Src) (b : Budget) : Prop where
  fired : s.fired.toNat = b.fired
  small : b.fired ≤ most
  off : s.en = .off → b.left = some 0
  oneshot : s.en = .oneshot → b.left = some 1 ∧ b.fired < most
  on : s.en = .on → (s.max = unlimited ∧ b.left = none) ∨
    (s.max ≠ unlimited ∧ s.fired.toNat < s.max.toNat ∧ b.left = some (s.max.toNat - s.fired.toNat))

private theorem unl : unlimited.toNat = 2 ^ 64 - 1 := by decide

private theorem eq_iff (a b : BitVec 64) : a = b ↔ a.toNat = b.toNat := by
  constructor
  · intro h; rw [h]
  · exact BitVec.eq_of_toNat_eq

private theorem newMax_spec (fired n : BitVec 64) (pos : Pos) (hs : fired.toNat ≤ most) (hn : n ≠ unlimited) :
    fired.toNat ≤ (newMax fired pos n).toNat ∧ (newMax fired pos n).toNat ≤ most ∧
      asked fired.toNat n.toNat pos = (newMax fired pos n).toNat - fired.toNat := by
  have hn1 := n.isLt
  rw [Ne, eq_iff, unl] at hn
  unfold most at hs
  cases pos with
  | abs =>
    simp only [newMax, asked, BitVec.lt_def]
    unfold most
    split <;> omega
  | rel =>
    simp only [newMax, asked, eq_iff, BitVec.lt_def, BitVec.toNat_add, unl]
    have h1 : (unlimited - 1).toNat = 2 ^ 64 - 2 := by decide
    unfold most
    split
    · rw [h1]; omega
    · rw [BitVec.toNat_add]; omega

private theorem set_rel {s b pos n} (h : RelEv s b) : RelEv (setCounter s pos n) (b.set pos n.toNat) := by
  have hf := h.fired
  have hs := h.small
  unfold setCounter Budget.set
  by_cases hu : n = unlimited
  · have : n.toNat = 2 ^ 64 - 1 := by rw [hu, unl]
    rw [if_pos hu, if_pos this]
    exact ⟨hf, hs, (by intro h; cases h), (by intro h; cases h), fun _ => .inl ⟨hu, rfl⟩⟩
  · have hu' : n.toNat ≠ 2 ^ 64 - 1 := fun he => hu ((eq_iff _ _).mpr (by rw [he, unl]))
    rw [if_neg hu, if_neg hu']
    obtain ⟨hm1, hm2, hm3⟩ := newMax_spec s.fired n pos (by omega) hu
    rw [← hf, hm3]
    have hsm : s.fired.toNat ≤ most := by omega
    generalize newMax s.fired pos n = m at *
    have hm2' := hm2
    unfold most at hm2'
    have hone : (1 : BitVec 64).toNat = 1 := rfl
    by_cases h1 : s.fired = m
    · have he : enOf s.fired m = .off := by rw [enOf, if_pos h1]
      rw [he]
      exact ⟨rfl, hsm, fun _ => (by rw [h1]; simp), (by intro h; cases h), (by intro h; cases h)⟩
    · have h1' : s.fired.toNat ≠ m.toNat := fun he => h1 ((eq_iff _ _).mpr he)
      by_cases h2 : s.fired + 1 = m
      · have he : enOf s.fired m = .oneshot := by rw [enOf, if_neg h1, if_pos h2]
        rw [he]
        rw [eq_iff, BitVec.toNat_add, hone] at h2
        refine ⟨rfl, hsm, (by intro h; cases h), fun _ => ⟨?_, ?_⟩, (by intro h; cases h)⟩
        · show some _ = some 1
          congr 1; omega
        · show s.fired.toNat < most
          omega
      · have he : enOf s.fired m = .on := by rw [enOf, if_neg h1, if_neg h2]
        rw [he]
        refine ⟨rfl, hsm, (by intro h; cases h), (by intro h; cases h), fun _ => .inr ⟨?_, ?_, rfl⟩⟩
        · show m ≠ unlimited
          rw [Ne, eq_iff, unl]; omega
        · show s.fired.toNat < m.toNat
          omega

private theorem sets_rel {calls : List (Pos × BitVec 64)} : ∀ {s b}, RelEv s b →
    RelEv (calls.foldl (fun s c => setCounter s c.1 c.2) s) (calls.foldl (fun b c => b.set c.1 c.2.toNat) b) := by
  induction calls with
  | nil => intro s b h; exact h
  | cons c l ih => intro s b h; exact ih (set_rel h)

private theorem sets_child {calls : List (Pos × BitVec 64)} : ∀ {s : Src},
    (calls.foldl (fun s c => setCounter s c.1 c.2) s).child = s.child := by
  induction calls with
  | nil => intro s; rfl
  | cons c l ih =>
    intro s
    rw [List.foldl_cons, ih]
    unfold setCounter
    split <;> rfl

private theorem after_rel {s b ret} (h : RelEv s b) (h1 : s.child = true → ret ≤ 0) :
    RelEv (afterHandler s ret) (if ret < 0 then { b with left := some 0 } else b) := by
  unfold afterHandler
  by_cases hr : ret < 0
  · simp only [hr, if_true]
    exact ⟨h.fired, h.small, fun _ => rfl, (by intro h; cases h), (by intro h; cases h)⟩
  · have : limits s.child ret = false := by
      unfold limits
      split
      · rename_i hc; have := h1 hc; simpa using this
      · simpa using hr
    simp only [if_neg hr, this, Bool.false_eq_true, if_false]
    exact h

private theorem count_rel {s b} (h : RelEv s b) (hoff : s.en ≠ .off) (h2 : b.left = none → b.fired < most) :
    RelEv (handleCounter (if s.en = .oneshot then { s with en := .off } else s)) ⟨b.fired + 1, b.left.map (· - 1)⟩ := by
  have hf := h.fired
  have hone : (1 : BitVec 64).toNat = 1 := rfl
  cases he : s.en with
  | off => exact absurd he hoff
  | oneshot =>
    obtain ⟨h3, h4⟩ := h.oneshot he
    have h5 : (s.fired + 1).toNat = b.fired + 1 := by
      rw [BitVec.toNat_add, hone]; unfold most at h4; omega
    simp only [if_true, handleCounter]
    split <;> exact ⟨h5, h4, fun _ => (by simp [h3]), (by intro h; cases h), (by intro h; cases h)⟩
  | on =>
    rw [if_neg (by intro h; cases h)]
    unfold handleCounter
    rcases h.on he with ⟨h3, h4⟩ | ⟨h3, h4, h5⟩
    · have h6 := h2 h4
      have h7 : (s.fired + 1).toNat = b.fired + 1 := by
        rw [BitVec.toNat_add, hone]; unfold most at h6; omega
      rw [if_neg (fun hh => hh.1 h3)]
      refine ⟨h7, h6, ?_, ?_, fun _ => .inl ⟨h3, by simp [h4]⟩⟩
      · intro hh; rw [he] at hh; cases hh
      · intro hh; rw [he] at hh; cases hh
    · have h6 := s.max.isLt
      have h3' := h3
      rw [Ne, eq_iff, unl] at h3'
      have h7 : (s.fired + 1).toNat = b.fired + 1 := by
        rw [BitVec.toNat_add, hone]; omega
      by_cases h8 : s.fired + 1 = s.max
      · rw [if_pos ⟨h3, h8⟩]
        rw [eq_iff] at h8
        refine ⟨h7, by unfold most; show b.fired + 1 ≤ _; omega, fun _ => ?_, (by intro h; cases h), (by intro h; cases h)⟩
        simp only [h5, Option.map_some]
        congr 1
        omega
      · rw [if_neg (fun hh => h8 hh.2)]
        have h8' : (s.fired + 1).toNat ≠ s.max.toNat := fun hx => h8 ((eq_iff _ _).mpr hx)
        refine ⟨h7, by unfold most; show b.fired + 1 ≤ _; omega, ?_, ?_, fun _ => .inr ⟨h3, ?_, ?_⟩⟩
        · intro hh; rw [he] at hh; cases hh
        · intro hh; rw [he] at hh; cases hh
        · show (s.fired + 1).toNat < s.max.toNat
          omega
        · simp only [h5, Option.map_some]
          congr 1
          omega

private theorem ready_rel {s b calls ret} (h : RelEv s b) (h1 : s.child = true → ret ≤ 0) (h2 : b.left = none → b.fired < most) :
    RelEv (ready s calls ret).1 (b.ready calls ret).1 ∧ (ready s calls ret).2 = (b.ready calls ret).2 := by
  unfold ready Budget.ready
  by_cases hoff : s.en = .off
  · rw [if_pos hoff, if_pos (h.off hoff)]
    exact ⟨h, rfl⟩
  · have hb : b.left ≠ some 0 := by
      intro hb
      cases he : s.en with
      | off => exact hoff he
      | oneshot => rw [(h.oneshot he).1] at hb; cases hb
      | on =>
        rcases h.on he with ⟨-, h3⟩ | ⟨-, h3, h4⟩
        · rw [h3] at hb; cases hb
        · rw [h4] at hb; simp at hb; omega
    rw [if_neg hoff, if_neg hb]
    refine ⟨?_, rfl⟩
    refine after_rel (sets_rel (count_rel h hoff h2)) ?_
    rw [sets_child]
    intro hc
    refine h1 ?_
    rw [← hc]
    unfold handleCounter
    split <;> split <;> rfl

private theorem step_child (s : Src) (a : Act) : (step s a).1.child = s.child := by
  cases a with
  | set pos n => simp only [step, setCounter]; split <;> rfl
  | ready calls ret =>
    simp only [step, ready]
    split
    · rfl
    · show (List.foldl _ _ _ : Src).child = _
      rw [sets_child]
      unfold handleCounter
      split <;> split <;> rfl

private theorem run_rel : ∀ {as : List Act} {s b}, RelEv s b → Fine s.child b as →
    RelEv (run s as).1 (b.run as).1 ∧ (run s as).2 = (b.run as).2 := by
  intro as
  induction as with
  | nil => intro s b h _; exact ⟨h, rfl⟩
  | cons a as ih =>
    intro s b h hf
    have hstep : RelEv (step s a).1 (b.step a).1 ∧ (step s a).2 = (b.step a).2 := by
      cases a with
      | set pos n => exact ⟨set_rel h, rfl⟩
      | ready calls ret => exact ready_rel h hf.1.1 hf.1.2
    have := ih hstep.1 (by rw [step_child]; exact hf.2)
    simp only [run, Budget.run]
    exact ⟨this.1, by rw [hstep.2, this.2]⟩

private theorem create_rel (child : Bool) (max : BitVec 64) :
    RelEv (create child max) ⟨0, if max = unlimited then none else some max.toNat⟩ := by
  unfold create enOfMax
  have hz : (0 : BitVec 64).toNat = 0 := rfl
  by_cases h0 : max = 0
  · subst h0
    exact ⟨rfl, Nat.zero_le _, fun _ => (by simp [unlimited]), (by intro h; cases h), (by intro h; cases h)⟩
  · by_cases h1 : max = 1
    · subst h1
      exact ⟨rfl, Nat.zero_le _, (by intro h; cases h), fun _ => ⟨by simp [unlimited], by show 0 < most; unfold most; omega⟩, (by intro h; cases h)⟩
    · rw [if_neg h0, if_neg h1]
      refine ⟨rfl, Nat.zero_le _, (by intro h; cases h), (by intro h; cases h), fun _ => ?_⟩
      by_cases h2 : max = unlimited
      · left; exact ⟨h2, by simp [h2]⟩
      · right
        refine ⟨h2, ?_, ?_⟩
        · show 0 < max.toNat
          have : max.toNat ≠ 0 := fun h => h0 ((eq_iff _ _).mpr h)
          omega
        · simp only [h2, if_false]
          show some max.toNat = some (max.toNat - 0)
          rw [Nat.sub_zero]

/-- C27.  A source created with any counter, under any history of counter updates (also from within its handler) and
    readiness: the handler is called exactly when the specification says that calls are left, and the number of calls
    reported is the number of calls made.  Missing: handlers of child process sources that return a positive number, and
    2^64 - 1 calls of a source without limit. -/
theorem C27_counter_bounds_calls_partial (child : Bool) (max : BitVec 64) (as : List Act)
    (h : Fine child ⟨0, if max = unlimited then none else some max.toNat⟩ as) :
    (run (create child max) as).2 = (Budget.run ⟨0, if max = unlimited then none else some max.toNat⟩ as).2 ∧
    (run (create child max) as).1.fired.toNat = (Budget.run ⟨0, if max = unlimited then none else some max.toNat⟩ as).1.fired := by
  obtain ⟨h1, h2⟩ := run_rel (create_rel child max) h
  exact ⟨h2, h1.fired⟩

private theorem run_append : ∀ (as bs : List Act) (s : Src),
    run s (as ++ bs) = ((run (run s as).1 bs).1, (run s as).2 ++ (run (run s as).1 bs).2) := by
  intro as
  induction as with
  | nil => intro bs s; rfl
  | cons a as ih => intro bs s; simp only [List.cons_append, run, ih]

private theorem budget_count : ∀ (evs : List Int) (b : Budget) (n : Nat), b.left = some n →
    (b.run (evs.map (.ready []))).2.count true ≤ n := by
  intro evs
  induction evs with
  | nil => intro b n _; simp [Budget.run]
  | cons r evs ih =>
    intro b n hn
    simp only [List.map_cons, Budget.run, Budget.step, Budget.ready]
    by_cases h0 : b.left = some 0
    · rw [if_pos h0]
      rw [hn] at h0
      cases h0
      simp only [List.count_cons, Bool.false_eq_true, beq_iff_eq, if_false, Nat.add_zero]
      have := ih b 0 hn
      simpa using this
    · rw [if_neg h0]
      have hpos : 0 < n := by
        rcases Nat.eq_zero_or_pos n with h | h
        · subst h; exact absurd hn h0
        · exact h
      simp only [List.foldl_nil, List.count_cons_self]
      by_cases hr : r < 0
      · simp only [hr, if_true]
        have := ih { fired := b.fired + 1, left := some 0 } 0 rfl
        omega
      · simp only [hr, if_false]
        have := ih { fired := b.fired + 1, left := b.left.map (· - 1) } (n - 1) (by simp [hn])
        omega

private theorem fine_bounded {child} : ∀ {evs : List Int} {b : Budget} {n}, b.left = some n →
    (child = true → ∀ r ∈ evs, r ≤ 0) → Fine child b (evs.map (.ready [])) := by
  intro evs
  induction evs with
  | nil => intro b n _ _; trivial
  | cons r evs ih =>
    intro b n hn hc
    refine ⟨⟨fun h => hc h r (by simp), fun h => by rw [hn] at h; cases h⟩, ?_⟩
    have hc' : child = true → ∀ r ∈ evs, r ≤ 0 := fun h x hx => hc h x (by simp [hx])
    simp only [Budget.step, Budget.ready]
    split
    · exact ih hn hc'
    · simp only [List.foldl_nil]
      split
      · exact ih rfl hc'
      · exact ih (n := n - 1) (by simp [hn]) hc'

/-- C27, in the words of the property: after any history, a counter set to `n` more calls (or to a total that is `n` more
    than the calls so far) leads to at most `n` more calls, however often the source is ready. -/
theorem C27_at_most_n_more_partial (child : Bool) (max : BitVec 64) (as : List Act) (pos : Pos) (m : BitVec 64) (evs : List Int)
    (h : Fine child ⟨0, if max = unlimited then none else some max.toNat⟩ as) (hm : m ≠ unlimited)
    (hc : child = true → ∀ r ∈ evs, r ≤ 0) :
    let s := (run (create child max) as).1
    (run (step s (.set pos m)).1 (evs.map (.ready []))).2.count true ≤
      (if pos = .rel then m.toNat else m.toNat - s.fired.toNat) := by
  intro s
  obtain ⟨h1, -⟩ := run_rel (create_rel child max) h
  have h2 := set_rel (pos := pos) (n := m) h1
  have hu' : m.toNat ≠ 2 ^ 64 - 1 := fun he => hm ((eq_iff _ _).mpr (by rw [he, unl]))
  have hch : (step s (.set pos m)).1.child = child := by
    rw [step_child]
    have : ∀ (as : List Act) (s : Src), (run s as).1.child = s.child := by
      intro as
      induction as with
      | nil => intro s; rfl
      | cons a as ih => intro s; simp only [run]; rw [ih, step_child]
    rw [this]; rfl
  have hl : ∃ k, ((Budget.run ⟨0, if max = unlimited then none else some max.toNat⟩ as).1.set pos m.toNat).left = some k ∧
      k ≤ (if pos = .rel then m.toNat else m.toNat - s.fired.toNat) := by
    refine ⟨asked (Budget.run ⟨0, if max = unlimited then none else some max.toNat⟩ as).1.fired m.toNat pos,
      by simp only [Budget.set, if_neg hu'], ?_⟩
    have hs : s.fired.toNat = _ := h1.fired
    cases pos with
    | abs => simp only [asked]; rw [hs]; exact Nat.le_refl _
    | rel => simp only [asked]; exact Nat.min_le_left _ _
  obtain ⟨k, hk, hk2⟩ := hl
  obtain ⟨-, h4⟩ := run_rel (as := evs.map (.ready [])) h2
    (by rw [show (setCounter (run (create child max) as).1 pos m).child = child from hch]; exact fine_bounded hk hc)
  show (run (setCounter s pos m) _).2.count true ≤ _
  rw [h4]
  exact Nat.le_trans (budget_count evs _ k hk) hk2

/-- a timer that re-arms itself twice from its handler and is then stopped by a failing handler -/
example : Fine false ⟨0, some 1⟩ [.ready [(.rel, 1)] 0, .ready [(.rel, 5)] 0, .ready [] (-1), .ready [] 0] ∧
    (run (create false 1) [.ready [(.rel, 1)] 0, .ready [(.rel, 5)] 0, .ready [] (-1), .ready [] 0]).2 =
      [true, true, true, false] := by
  refine ⟨?_, by decide +kernel⟩
  simp [Fine, Budget.step, Budget.ready, Budget.set, asked, most]

/-- C27 is false as stated for child process sources: a handler returning 1 sets the limit to the calls so far without
    disabling the source, which from then on fires without limit -/
theorem C27_child_counterexample :
    (run (create true unlimited) [.set .rel 3, .ready [] 1, .ready [] 0, .ready [] 0, .ready [] 0, .ready [] 0]).2.count true = 5 := by
  decide +kernel

/-- C27 is false as stated after 2^64 - 1 calls: one more call is asked for and two are made -/
theorem C27_wrap_counterexample :
    (run ⟨false, unlimited, unlimited, .on⟩ [.set .rel 1, .ready [] 0, .ready [] 0]).2.count true = 2 := by
  decide +kernel

/-! ### C69 -/

/-- C69.  A timer re-armed with a relative time is either set to exactly the current time plus that time, without
    wrapping around and not at the value that stands for "never", or an error is returned and the timer is not set. -/
theorem C69_rearm_relative_time (nowRet : Int) (now usec : BitVec 64) :
    (∀ t, (rearmRelTime nowRet now usec).2 = some t →
      (rearmRelTime nowRet now usec).1 = 0 ∧ t.toNat = now.toNat + usec.toNat ∧ t.toNat < 2 ^ 64 - 1) ∧
    ((rearmRelTime nowRet now usec).2 = none → (rearmRelTime nowRet now usec).1 < 0 ∧
      (nowRet < 0 ∨ 2 ^ 64 - 1 ≤ now.toNat + usec.toNat)) := by
  have h1 := now.isLt
  have h2 := usec.isLt
  have h3 : (BitVec.allOnes 64 - now).toNat = 2 ^ 64 - 1 - now.toNat := by
    rw [BitVec.toNat_sub, BitVec.toNat_allOnes]
    omega
  unfold rearmRelTime
  by_cases hn : nowRet < 0
  · rw [if_pos hn]
    exact ⟨fun t ht => (by cases ht), fun _ => ⟨hn, .inl hn⟩⟩
  · rw [if_neg hn]
    by_cases hl : BitVec.allOnes 64 - now ≤ usec
    · rw [if_pos hl]
      rw [BitVec.le_def, h3] at hl
      exact ⟨fun t ht => (by cases ht), fun _ => ⟨by show (-75 : Int) < 0; omega, .inr (by omega)⟩⟩
    · rw [if_neg hl]
      rw [BitVec.le_def, h3] at hl
      refine ⟨fun t ht => ?_, fun h => by cases h⟩
      have ht := Option.some.inj ht
      rw [← ht, BitVec.toNat_add]
      exact ⟨rfl, by omega, by omega⟩

/-- C69, creating a timer: the same, except for what is returned when the clock cannot be read -/
theorem C69_create_relative_time_partial (nowRet : Int) (now usec : BitVec 64) :
    (∀ t, (createRelTime nowRet now usec).2 = some t →
      (createRelTime nowRet now usec).1 = 0 ∧ t.toNat = now.toNat + usec.toNat ∧ t.toNat < 2 ^ 64 - 1) ∧
    (0 ≤ nowRet → (createRelTime nowRet now usec).2 = none → (createRelTime nowRet now usec).1 < 0 ∧
      2 ^ 64 - 1 ≤ now.toNat + usec.toNat) := by
  have h1 := now.isLt
  have h2 := usec.isLt
  have h3 : (BitVec.allOnes 64 - now).toNat = 2 ^ 64 - 1 - now.toNat := by
    rw [BitVec.toNat_sub, BitVec.toNat_allOnes]
    omega
  unfold createRelTime
  by_cases hn : nowRet < 0
  · rw [if_pos hn]
    exact ⟨fun t ht => (by cases ht), fun h => absurd hn (by omega)⟩
  · rw [if_neg hn]
    by_cases hl : BitVec.allOnes 64 - now ≤ usec
    · rw [if_pos hl]
      rw [BitVec.le_def, h3] at hl
      exact ⟨fun t ht => (by cases ht), fun _ _ => ⟨by show (-75 : Int) < 0; omega, by omega⟩⟩
    · rw [if_neg hl]
      rw [BitVec.le_def, h3] at hl
      refine ⟨fun t ht => ?_, fun _ h => by cases h⟩
      have ht := Option.some.inj ht
      rw [← ht, BitVec.toNat_add]
      exact ⟨rfl, by omega, by omega⟩

example : (rearmRelTime 0 100 5).2 = some 105 ∧ (rearmRelTime 0 100 (BitVec.allOnes 64 - 1)).1 < 0 := by decide +kernel

/-- C69 is false as stated: if the clock cannot be read, a positive number is returned, which callers take for success
    although there is no timer -/
theorem C69_clock_failure_counterexample : createRelTime (-22) 0 0 = (1, none) := by decide +kernel

end Sid.Props
