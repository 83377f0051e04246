import Verif.Spec.Start
/-
Lemmas on the start of the daemon.
-/
namespace Sid.Start
open Sid.Spec.Start
open Sid.Ifc (txt)

theorem lowest_some {os : Os} {t : Fds} {a i : Nat} (h : lowest os t a = some i) :
    i < os.limit ∧ a ≤ i ∧ t i = none ∧ ∀ j, a ≤ j → j < i → t j ≠ none := by
  unfold lowest at h
  rw [List.find?_range_eq_some] at h
  obtain ⟨h1, h2, h3⟩ := h
  simp only [Bool.and_eq_true, decide_eq_true_eq, Option.isNone_iff_eq_none] at h1
  rw [List.mem_range] at h2
  refine ⟨h2, h1.1, h1.2, fun j hj hi hn => ?_⟩
  have := h3 j hi
  simp [hj, hn] at this

theorem lowest_of {os : Os} {t : Fds} {a i : Nat} (h1 : i < os.limit) (h2 : a ≤ i) (h3 : t i = none) : ∃ j, lowest os t a = some j := by
  cases h : lowest os t a with
  | some j => exact ⟨j, rfl⟩
  | none =>
    unfold lowest at h
    rw [List.find?_eq_none] at h
    have := h i (List.mem_range.2 h1)
    simp [h2, h3] at this

theorem closeDown_at (t : Fds) (n i : Nat) : closeDown n t i = if 2 < i ∧ i < n then none else t i := by
  induction n generalizing t with
  | zero => simp [closeDown]
  | succ k ih =>
    unfold closeDown
    by_cases h : 2 < k
    · rw [if_pos h, ih]
      unfold put
      grind
    · rw [if_neg h]
      rw [if_neg (by omega)]

theorem streams_ok {os : Os} {p q : Proc} (h : streams os p = .ok q) :
    ∃ fd, lowest os p.fds 0 = some fd ∧
      q = { p with umask := 0o077, fds := fun i => if 2 < i ∧ i < os.limit then none else if i = fd then none
                                           else if i < 3 then some { file := .null } else p.fds i } := by
  unfold streams at h
  by_cases hd : os.devNull
  · rw [if_pos hd] at h
    cases hl : lowest os p.fds 0 with
    | none => rw [hl] at h; cases h
    | some fd =>
      rw [hl] at h
      simp only [dup3] at h
      by_cases hu : (os.dup 0 && os.dup 1 && os.dup 2) = true
      · rw [if_pos hu] at h
        cases h
        refine ⟨fd, rfl, ?_⟩
        congr 1
        funext i
        rw [closeDown_at]
        unfold put
        simp only [if_pos, Option.map_some]
        grind
      · rw [if_neg hu] at h
        cases h
  · rw [if_neg hd] at h
    cases h

/-- the process once it is in the background -/
def detached (os : Os) (p : Proc) (c d fd : Nat) : Proc :=
  { pid := d, session := if os.setsid then c else p.session, tty := if os.setsid then false else p.tty, cwd := txt "/", umask := 0o077,
    fds := fun i => if 2 < i ∧ i < os.limit then none else if i = fd then none else if i < 3 then some { file := .null } else p.fds i }

/-- the socket the daemon makes -/
def ownFd : Fd := { file := .sock { unix := true, stream := true, listening := true, addr := address }, cloexec := true }

theorem becomeDaemon_ok {os : Os} {p q : Proc} {s : Nat} (h : becomeDaemon os p = (s, .ok q)) :
    ∃ c d fd, os.fork1 = some c ∧ os.fork2 = some d ∧ lowest os p.fds 0 = some fd ∧
      q = detached os p c d fd := by
  unfold becomeDaemon at h
  cases h1 : os.fork1 with
  | none => rw [h1] at h; cases h
  | some c =>
    cases h2 : os.fork2 with
    | none => rw [h1, h2] at h; cases h
    | some d =>
      rw [h1, h2] at h
      dsimp only at h
      by_cases hc : os.chdir
      · rw [if_pos hc] at h
        injection h with h3 h4
        obtain ⟨fd, h5, h6⟩ := streams_ok h4
        have e : (newSession os { p with pid := c }).fds = p.fds := by unfold newSession; split <;> rfl
        refine ⟨c, d, fd, rfl, rfl, ?_, ?_⟩
        · rw [← h5]
          exact congrArg (fun x => lowest os x 0) e.symm
        · rw [h6]
          unfold newSession detached
          split <;> rfl
      · rw [if_neg hc] at h
        cases h

theorem cloexecFrom_file (t : Fds) (i n j : Nat) : ((cloexecFrom t i n).1 j).map Fd.file = (t j).map Fd.file := by
  induction n generalizing t i with
  | zero => rfl
  | succ n ih =>
    unfold cloexecFrom
    cases h : t i with
    | none => rfl
    | some f =>
      dsimp only
      rw [ih]
      unfold put
      by_cases e : j = i
      · rw [if_pos e, e, h]; rfl
      · rw [if_neg e]

theorem cloexecFrom_below (t : Fds) (i n j : Nat) (hj : j < i) : (cloexecFrom t i n).1 j = t j := by
  induction n generalizing t i with
  | zero => rfl
  | succ n ih =>
    unfold cloexecFrom
    cases h : t i with
    | none => rfl
    | some f =>
      dsimp only
      rw [ih _ _ (by omega)]
      unfold put
      rw [if_neg (by omega)]

theorem cloexecFrom_all (t : Fds) (i n : Nat) (h : ∀ j, j < n → (t (i + j)).isSome) : (cloexecFrom t i n).2 = true := by
  induction n generalizing t i with
  | zero => rfl
  | succ n ih =>
    unfold cloexecFrom
    have h0 := h 0 (by omega)
    cases e : t i with
    | none => rw [Nat.add_zero, e] at h0; cases h0
    | some f =>
      dsimp only
      refine ih _ _ fun j hj => ?_
      have := h (j + 1) (by omega)
      unfold put
      rw [if_neg (by omega), show i + 1 + j = i + (j + 1) by omega]
      exact this

theorem listenFds_file (env : Env) (p : Proc) (j : Nat) : ((listenFds env p).1 j).map Fd.file = (p.fds j).map Fd.file := by
  unfold listenFds
  split
  · rfl
  · rfl
  · split
    · split
      · rfl
      · rfl
      · split
        · rfl
        · rename_i n _ _
          have := cloexecFrom_file p.fds 3 n j
          split
          · rename_i e; rw [e] at this; exact this
          · rename_i e; rw [e] at this; exact this
    · rfl

theorem listenFds_low (env : Env) (p : Proc) (j : Nat) (hj : j < 3) : (listenFds env p).1 j = p.fds j := by
  unfold listenFds
  split
  · rfl
  · rfl
  · split
    · split
      · rfl
      · rfl
      · split
        · rfl
        · rename_i n _ _
          have := cloexecFrom_below p.fds 3 n j hj
          split
          · rename_i e; rw [e] at this; exact this
          · rename_i e; rw [e] at this; exact this
    · rfl

theorem isSocketUnix_yes {t : Fds} {fd : Nat} (ho : t fd ≠ none) (h : isSocketUnix t fd 1 address ≠ 0) : Listens t fd := by
  unfold isSocketUnix at h
  cases e : t fd with
  | none => exact absurd e ho
  | some f =>
    rw [e] at h
    obtain ⟨fl, c⟩ := f
    cases fl with
    | null => exact absurd rfl h
    | loop => exact absurd rfl h
    | other n => exact absurd rfl h
    | sock s =>
      dsimp only at h
      split at h
      · rename_i hs
        simp at hs
        obtain ⟨⟨⟨h1, h2⟩, h3⟩, h4⟩ := hs
        refine ⟨c, ?_⟩
        rw [e]
        obtain ⟨u, s', l, a⟩ := s
        dsimp only at h1 h2 h3 h4
        subst h1 h2 h3 h4
        rfl
      · exact absurd rfl h

theorem unixCreate_ok {os : Os} {t t' : Fds} {fd : Nat} (h : unixCreate os t address 0x80801 = .ok (t', fd)) :
    os.taken = false ∧ lowest os t 0 = some fd ∧
      t' = put t fd (some { file := .sock { unix := true, stream := true, listening := true, addr := address }, cloexec := true }) := by
  unfold unixCreate at h
  split at h
  · cases h
  · by_cases hs : os.sock
    · rw [if_pos hs] at h
      cases hl : lowest os t 0 with
      | none => rw [hl] at h; cases h
      | some i =>
        rw [hl] at h
        dsimp only at h
        by_cases ht : os.taken = true ∨ ¬os.bind = true
        · rw [if_pos ht] at h
          cases h
        · rw [if_neg ht, if_pos (by decide)] at h
          by_cases hli : os.listen
          · rw [if_pos hli] at h
            cases h
            refine ⟨?_, rfl, by simp⟩
            cases hk : os.taken with
            | false => rfl
            | true => exact absurd (.inl hk) ht
          · rw [if_neg hli] at h
            cases h
    · rw [if_neg hs] at h
      cases h

/-- what setting up the socket comes to -/
theorem setUpSocket_ok {os : Os} {env : Env} {p : Proc} {t : Fds} {fd : Nat} (h : setUpSocket os env p = (t, .ok fd)) :
    (fd = 3 ∧ t = (listenFds env p).1 ∧ (listenFds env p).2 ≠ 0 ∧ isSocketUnix t 3 1 address ≠ 0) ∨
    (os.taken = false ∧ (listenFds env p).2 = 0 ∧ lowest os (listenFds env p).1 0 = some fd ∧
      t = put (listenFds env p).1 fd
        (some { file := .sock { unix := true, stream := true, listening := true, addr := address }, cloexec := true })) := by
  unfold setUpSocket at h
  generalize listenFds env p = l at h ⊢
  obtain ⟨t0, r⟩ := l
  dsimp only at h ⊢
  by_cases hr : r = 0
  · rw [if_neg (by simpa using hr)] at h
    cases hc : unixCreate os t0 address 0x80801 with
    | error e => rw [hc] at h; cases h
    | ok x =>
      obtain ⟨t1, f1⟩ := x
      rw [hc] at h
      cases h
      obtain ⟨h1, h2, h3⟩ := unixCreate_ok hc
      exact .inr ⟨h1, hr, h2, h3⟩
  · rw [if_pos hr] at h
    split at h
    · cases h
    · split at h
      · cases h
      · split at h
        · cases h
        · cases h
          rename_i hh
          exact .inl ⟨rfl, rfl, hr, hh⟩

theorem setUpSocket_error {os : Os} {env : Env} {p : Proc} {t : Fds} {e : Int} (h : setUpSocket os env p = (t, .error e)) :
    t = (listenFds env p).1 := by
  unfold setUpSocket at h
  generalize listenFds env p = l at h ⊢
  obtain ⟨t0, r⟩ := l
  dsimp only at h ⊢
  split at h
  · split at h
    · cases h; rfl
    · split at h
      · cases h; rfl
      · split at h
        · cases h; rfl
        · cases h
  · split at h
    · cases h; rfl
    · cases h

/-- the process once its event loop is there -/
def withLoop (p : Proc) (ep : Nat) : Proc := { p with fds := put p.fds ep (some { file := .loop, cloexec := true }) }

theorem createSid_some {os : Os} {env : Env} {p : Proc} {t : Fds} {fd : Nat} (h : createSid os env p = (t, some fd)) :
    ∃ ep, lowest os p.fds 3 = some ep ∧ setUpSocket os env (withLoop p ep) = (t, .ok fd) := by
  unfold createSid at h
  by_cases hl : os.loop
  · rw [if_pos hl] at h
    cases e : lowest os p.fds 3 with
    | none => rw [e] at h; cases h
    | some ep =>
      rw [e] at h
      refine ⟨ep, rfl, ?_⟩
      change (match initUbridge os env (withLoop p ep) with | (t, none) => (put t ep none, none) | (t, some fd) => (t, some fd)) = _ at h
      unfold initUbridge at h
      by_cases he : os.early
      · rw [if_pos he] at h
        generalize setUpSocket os env (withLoop p ep) = x at h ⊢
        obtain ⟨t0, r⟩ := x
        cases r with
        | error e => cases h
        | ok f =>
          dsimp only at h
          by_cases hla : os.late
          · rw [if_pos hla] at h
            cases h
            rfl
          · rw [if_neg hla] at h
            cases h
      · rw [if_neg he] at h
        cases h
  · rw [if_neg hl] at h
    cases h

theorem withLoop_three {os : Os} {p : Proc} {ep : Nat} (h : lowest os p.fds 3 = some ep) : (withLoop p ep).fds 3 ≠ none := by
  obtain ⟨-, h2, -, h4⟩ := lowest_some h
  unfold withLoop put
  dsimp only
  by_cases e : 3 = ep
  · rw [if_pos e]; simp
  · rw [if_neg e]
    exact h4 3 (Nat.le_refl _) (by omega)

theorem map_file_none {a b : Option Fd} (h : a.map Fd.file = b.map Fd.file) : a = none ↔ b = none := by
  cases a <;> cases b <;> simp_all

theorem serve_serves {os : Os} {env : Env} {p q : Proc} {fd st : Nat} (h : serve os env p = .serves q fd st) :
    0 ≤ os.atfork ∧ st = exitStatus os ∧ q = { p with fds := q.fds } ∧ createSid os env p = (q.fds, some fd) := by
  unfold serve at h
  split at h
  · cases h
  · rename_i ha
    generalize hx : createSid os env p = x at h
    obtain ⟨t, r⟩ := x
    cases r with
    | none => cases h
    | some f =>
      cases h
      exact ⟨by omega, rfl, rfl, rfl⟩

theorem hf_file {os : Os} {env : Env} {p : Proc} {t : Fds} {i : Nat} {f : Fd} (h : initUbridge os env p = (t, none)) (hf : t i = some f) :
    some f.file = (p.fds i).map Fd.file := by
  have key : ∀ t', t' i = some f → t' = (listenFds env p).1 → some f.file = (p.fds i).map Fd.file := by
    intro t' h1 h2
    rw [← listenFds_file env p i, ← h2, h1]
    rfl
  unfold initUbridge at h
  split at h
  · generalize hg : setUpSocket os env p = x at h
    obtain ⟨t1, r⟩ := x
    cases r with
    | error e =>
      cases h
      exact key _ hf (setUpSocket_error hg)
    | ok fd =>
      dsimp only at h
      split at h
      · cases h
      · cases h
        unfold put at hf
        by_cases hi : i = fd
        · rw [if_pos hi] at hf; cases hf
        · rw [if_neg hi] at hf
          rcases setUpSocket_ok hg with ⟨-, h2, -, -⟩ | ⟨-, -, -, h2⟩
          · exact key _ hf h2
          · rw [h2] at hf
            unfold put at hf
            rw [if_neg hi] at hf
            exact key _ hf rfl
  · cases h
    rw [hf]
    rfl

end Sid.Start
