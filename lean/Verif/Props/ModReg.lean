import Verif.Model.ModReg
import Verif.Spec.ModReg
import Verif.Proof.UtilStr
import Verif.Model.Ifc
/-
C46: looking up and loading modules.  C71: full names of modules.
-/
namespace Sid.Props
open Sid.ModReg Sid.Spec.ModReg
open Sid.Ifc (txt)

theorem cstrAt_nul {a : Str} (h : (0 : UInt8) ∉ a) (r : List UInt8) : UStr.cstrAt (a ++ 0 :: r) 0 = some a := by
  rw [UStr.cstrAt, List.drop_zero, if_pos (by simp), UStr.takeWhile_all (fun x hx => by simp; rintro rfl; exact h hx)]
  simp

theorem declared_cons (a : Str) (l : List Str) (r : List UInt8) : declared (a :: l) ++ r = a ++ 0 :: (declared l ++ r) := by
  simp [declared]

theorem aliasLoop_declared (nm : Str) (l : List Str) (h : ProperAliases l) (r : List UInt8) :
    aliasLoop nm (declared l ++ r) = some (decide (nm ∈ l)) := by
  induction l with
  | nil =>
    have e : UStr.cstrAt (declared [] ++ r) 0 = some [] := cstrAt_nul (a := []) (by simp) r
    rw [aliasLoop]
    split
    · next h => rw [e] at h; cases h
    · next a h => rw [e] at h; cases h; simp
  | cons a l ih =>
    have ha := h a (by simp)
    have e : UStr.cstrAt (declared (a :: l) ++ r) 0 = some a := by rw [declared_cons]; exact cstrAt_nul ha.2 _
    rw [aliasLoop]
    split
    · next h => rw [e] at h; cases h
    · next b hb =>
      rw [e] at hb; cases hb
      rw [if_neg (by simpa using ha.1)]
      split
      · next he => subst he; simp
      · next he =>
        have hd : (declared (a :: l) ++ r).drop (a.length + 1) = declared l ++ r := by
          rw [declared_cons, ← List.drop_drop, List.drop_left]; rfl
        rw [hd, ih (fun x hx => h x (by simp [hx]))]
        simp [Ne.symm he]

theorem hasName_iff {m : Mod} (h : Proper m.aliases) (nm : Str) :
    ∃ b, hasName nm m = some b ∧ (b = true ↔ Called m.name m.aliases nm) := by
  unfold hasName
  by_cases hn : m.name = nm
  · exact ⟨true, by rw [if_pos hn], by simp [Called, hn]⟩
  · rw [if_neg hn]
    rcases h with h | ⟨l, r, hl, h⟩
    · rw [h]; exact ⟨false, rfl, by simp [Called, hn]⟩
    · rw [h]
      refine ⟨decide (nm ∈ l), aliasLoop_declared nm l hl r, ?_⟩
      simp only [decide_eq_true_iff]
      constructor
      · exact fun hm => .inr ⟨l, r, hl, rfl, hm⟩
      · rintro (h' | ⟨l', r', hl', e, hm⟩)
        · exact absurd h' hn
        · simp only [Option.some.injEq] at e
          have h1 := aliasLoop_declared nm l hl r
          have h2 := aliasLoop_declared nm l' hl' r'
          rw [← e, h1] at h2
          simpa [hm] using h2

theorem findIn_spec {l : List Mod} (h : ∀ m ∈ l, Proper m.aliases) (nm : Str) :
    (∃ pre m post, l = pre ++ m :: post ∧ Called m.name m.aliases nm ∧ (∀ x ∈ pre, ¬ Called x.name x.aliases nm) ∧
      findIn nm l = some (some m)) ∨
    ((∀ x ∈ l, ¬ Called x.name x.aliases nm) ∧ findIn nm l = some none) := by
  induction l with
  | nil => exact .inr ⟨by simp, rfl⟩
  | cons m l ih =>
    obtain ⟨b, hb, hc⟩ := hasName_iff (h m (by simp)) nm
    cases b with
    | true => exact .inl ⟨[], m, l, rfl, hc.mp rfl, by simp, by simp [findIn, hb]⟩
    | false =>
      have hm : ¬ Called m.name m.aliases nm := fun hh => by cases hc.mpr hh
      rcases ih (fun x hx => h x (by simp [hx])) with ⟨pre, x, post, e, h1, h2, h3⟩ | ⟨h1, h2⟩
      · exact .inl ⟨m :: pre, x, post, by simp [e], h1, UStr.forall_cons hm h2, by simp [findIn, hb, h3]⟩
      · exact .inr ⟨UStr.forall_cons hm h1, by simp [findIn, hb, h2]⟩

/-! Histories -/

/-- the shared objects of a directory declare their aliases properly -/
def ProperDisk (disk : Str → Option Plugin) : Prop := ∀ f pl, disk f = some pl → Proper pl.aliases

def ProperOp : Op → Prop
  | .load d _ _ | .loadAll d _ => ProperDisk d
  | .unload _ => True

structure RInv (r : Reg) : Prop where
  proper : ∀ m ∈ r.mods, Proper m.aliases
  sorted : r.mods.Pairwise (fun a b => a.prio ≤ b.prio)
  small : ∀ m ∈ r.mods, m.mid < r.next
  distinct : r.mods.Pairwise (fun a b => a.mid ≠ b.mid)

theorem mem_insPrio {m x : Mod} {l : List Mod} : x ∈ insPrio m l ↔ x = m ∨ x ∈ l := by
  induction l with
  | nil => simp [insPrio]
  | cons c l ih =>
    rw [insPrio]
    split
    · simp
    · simp [ih]; grind

theorem insPrio_sorted {m : Mod} {l : List Mod} (h : l.Pairwise (fun a b => a.prio ≤ b.prio)) :
    (insPrio m l).Pairwise (fun a b => a.prio ≤ b.prio) := by
  induction l with
  | nil => simp [insPrio]
  | cons c l ih =>
    rw [List.pairwise_cons] at h
    rw [insPrio]
    split
    · next hlt =>
      refine List.pairwise_cons.mpr ⟨?_, List.pairwise_cons.mpr h⟩
      intro x hx
      rcases List.mem_cons.mp hx with rfl | hx
      · omega
      · have := h.1 x hx; omega
    · next hlt =>
      refine List.pairwise_cons.mpr ⟨?_, ih h.2⟩
      intro x hx
      rcases mem_insPrio.mp hx with rfl | hx
      · omega
      · exact h.1 x hx

theorem insPrio_pairwise {R : Mod → Mod → Prop} (hs : ∀ a b, R a b → R b a) {m : Mod} {l : List Mod} (h : l.Pairwise R)
    (hm : ∀ x ∈ l, R m x) : (insPrio m l).Pairwise R := by
  induction l with
  | nil => simp [insPrio]
  | cons c l ih =>
    rw [List.pairwise_cons] at h
    rw [insPrio]
    split
    · exact List.pairwise_cons.mpr ⟨hm, List.pairwise_cons.mpr h⟩
    · refine List.pairwise_cons.mpr ⟨?_, ih h.2 (fun x hx => hm x (by simp [hx]))⟩
      intro x hx
      rcases mem_insPrio.mp hx with rfl | hx
      · exact hs _ _ (hm c (by simp))
      · exact h.1 x hx

theorem initMod_spec {r : Reg} {d : Str → Option Plugin} {nm : Str} {ok : Bool} {m : Mod} (h : initMod r d nm ok = some m) :
    m.mid = r.next ∧ m.fullName = r.base ++ [slash] ++ nm ∧ m.name = lastSeg (r.base ++ [slash] ++ nm) ∧
    ∃ pl, d (fileOf r.params m.name) = some pl ∧ m.aliases = pl.aliases ∧ m.prio = pl.prio.getD 0 ∧
      loadSyms pl r.params.syms = some m.syms ∧ ok = true ∧ pl.hasInit = true ∧ pl.hasExit = true := by
  simp only [initMod, setName] at h
  split at h
  · cases h
  · next pl hpl =>
    split at h
    · cases h
    · next hie =>
      have hie : pl.hasInit = true ∧ pl.hasExit = true := by simpa using hie
      split at h
      · cases h
      · next s hs =>
        split at h
        · next hok =>
          cases h
          exact ⟨rfl, rfl, rfl, pl, hpl, rfl, rfl, hs, hok, hie⟩
        · cases h

theorem createMod_inv {r : Reg} (I : RInv r) {d : Str → Option Plugin} (hd : ProperDisk d) (nm : Str) (ok : Bool) :
    RInv (createMod r d nm ok).1 := by
  unfold createMod
  cases e : initMod r d nm ok with
  | none => exact I
  | some m =>
    obtain ⟨h1, -, -, pl, h4, h5, -, -, -⟩ := initMod_spec e
    refine ⟨?_, insPrio_sorted I.sorted, ?_, insPrio_pairwise (fun a b h => Ne.symm h) I.distinct ?_⟩
    · intro x hx
      rcases mem_insPrio.mp hx with rfl | hx
      · rw [h5]; exact hd _ pl h4
      · exact I.proper x hx
    · intro x hx
      rcases mem_insPrio.mp hx with rfl | hx
      · simp [h1]
      · exact Nat.lt_succ_of_lt (I.small x hx)
    · intro x hx
      have := I.small x hx
      omega

theorem loadMods_inv {d : Str → Option Plugin} (hd : ProperDisk d) (es : List (Str × Bool)) {r : Reg} (I : RInv r) :
    RInv (loadMods r d es) := by
  induction es generalizing r with
  | nil => exact I
  | cons e es ih =>
    obtain ⟨e, ok⟩ := e
    rw [loadMods]
    split
    · exact ih I
    · exact ih (createMod_inv I hd _ ok)

theorem loadMod_defined {r : Reg} (I : RInv r) (d : Str → Option Plugin) (nm : Str) (ok : Bool) : ∃ x, loadMod r d nm ok = some x := by
  unfold loadMod
  split
  · exact ⟨_, rfl⟩
  · rcases findIn_spec I.proper nm with ⟨_, m, _, _, _, _, e⟩ | ⟨_, e⟩
    · rw [e]; exact ⟨_, rfl⟩
    · rw [e]; exact ⟨_, rfl⟩

theorem loadMod_inv {r : Reg} (I : RInv r) {d : Str → Option Plugin} (hd : ProperDisk d) {nm : Str} {ok : Bool} {r' : Reg}
    {x : Option Mod} (h : loadMod r d nm ok = some (r', x)) : RInv r' := by
  unfold loadMod at h
  split at h
  · cases h; exact I
  · split at h
    · cases h
    · cases h; exact I
    · have := createMod_inv I hd nm ok
      have e : r' = (createMod r d nm ok).1 := by simp only [Option.some.injEq] at h; rw [h]
      rw [e]; exact this

theorem step_inv {r : Reg} (I : RInv r) {o : Op} (ho : ProperOp o) : ∃ r', step r o = some r' ∧ RInv r' := by
  cases o with
  | load d nm ok =>
    obtain ⟨⟨r', x⟩, hx⟩ := loadMod_defined I d nm ok
    exact ⟨r', by simp [step, hx], loadMod_inv I ho hx⟩
  | loadAll d es => exact ⟨_, rfl, loadMods_inv ho es I⟩
  | unload mid =>
    refine ⟨_, rfl, fun m hm => I.proper m (List.mem_filter.mp hm).1, I.sorted.filter _, fun m hm => I.small m (List.mem_filter.mp hm).1,
      I.distinct.filter _⟩

theorem run_inv {r : Reg} (I : RInv r) {l : List Op} (h : ∀ o ∈ l, ProperOp o) : ∃ r', run r l = some r' ∧ RInv r' := by
  induction l generalizing r with
  | nil => exact ⟨r, rfl, I⟩
  | cons o l ih =>
    obtain ⟨r1, e1, I1⟩ := step_inv I (h o (by simp))
    obtain ⟨r2, e2, I2⟩ := ih I1 (fun x hx => h x (by simp [hx]))
    exact ⟨r2, by simp [run, e1, e2], I2⟩

theorem newReg_inv (rid : Str) (p : Params) : RInv (newReg rid p) := by
  refine ⟨?_, ?_, ?_, ?_⟩ <;> simp [newReg]

/-- **C46.** In every registry, after any history of loading (single modules, whole directories) and unloading: looking up a name is
    defined, yields a registered module having that name or alias if there is one, and nothing otherwise.  Of several it is one of
    the smallest priority number. -/
theorem C46_lookup (rid : Str) (p : Params) (ops : List Op) (h : ∀ o ∈ ops, ProperOp o) (nm : Str) (hnm : nm ≠ []) :
    ∃ r, run (newReg rid p) ops = some r ∧
      ((∃ m ∈ r.mods, getMod r nm = some (some m) ∧ Called m.name m.aliases nm ∧
          ∀ x ∈ r.mods, Called x.name x.aliases nm → m.prio ≤ x.prio) ∨
       ((∀ x ∈ r.mods, ¬ Called x.name x.aliases nm) ∧ getMod r nm = some none)) := by
  obtain ⟨r, e, I⟩ := run_inv (newReg_inv rid p) h
  refine ⟨r, e, ?_⟩
  rw [getMod, if_neg (by simpa using hnm)]
  rcases findIn_spec I.proper nm with ⟨pre, m, post, hl, h1, h2, h3⟩ | ⟨h1, h2⟩
  · refine .inl ⟨m, by rw [hl]; simp, h3, h1, ?_⟩
    intro x hx hxc
    rw [hl] at hx
    rcases List.mem_append.mp hx with hx | hx
    · exact absurd hxc (h2 x hx)
    · rcases List.mem_cons.mp hx with rfl | hx
      · exact Int.le_refl _
      · have := I.sorted
        rw [hl, List.pairwise_append] at this
        exact (List.pairwise_cons.mp this.2.1).1 x hx
  · exact .inr ⟨h1, h2⟩

theorem lastSeg_noSlash {pre nm : Str} (h : slash ∉ nm) : lastSeg (pre ++ [slash] ++ nm) = nm := by
  unfold lastSeg
  have : ∀ x ∈ nm.reverse, decide (x ≠ slash) = true := by
    intro x hx; simp; rintro rfl; exact h (List.mem_reverse.mp hx)
  rw [List.reverse_append, UStr.takeWhile_all this]
  simp

/-- **C46.** Asking for a module some registered module is called by does not load anything: the registry stays as it is and the
    module registered is returned. -/
theorem C46_load_registered (r : Reg) (hp : ∀ m ∈ r.mods, Proper m.aliases) (d : Str → Option Plugin) (nm : Str) (ok : Bool)
    (hnm : nm ≠ []) (m : Mod) (hm : m ∈ r.mods) (hc : Called m.name m.aliases nm) :
    ∃ m' ∈ r.mods, loadMod r d nm ok = some (r, some m') ∧ Called m'.name m'.aliases nm ∧ getMod r nm = some (some m') := by
  rw [getMod, loadMod, if_neg (by simpa using hnm), if_neg (by simpa using hnm)]
  rcases findIn_spec hp nm with ⟨pre, m', post, hl, h1, h2, h3⟩ | ⟨h1, -⟩
  · exact ⟨m', by rw [hl]; simp, by rw [h3], h1, h3⟩
  · exact absurd hc (h1 m hm)

/-- **C46.** Loading the same module again returns the one loaded first, whatever is on the disk by then. -/
theorem C46_load_twice (r : Reg) (hp : ∀ m ∈ r.mods, Proper m.aliases) (d d' : Str → Option Plugin) (hd : ProperDisk d) (nm : Str)
    (ok ok' : Bool) (hs : slash ∉ nm) (r' : Reg) (m : Mod) (h : loadMod r d nm ok = some (r', some m)) :
    m ∈ r'.mods ∧ loadMod r' d' nm ok' = some (r', some m) := by
  have hnm : nm ≠ [] := by
    rintro rfl; simp [loadMod] at h
  rcases findIn_spec hp nm with ⟨pre, m', post, hl, h1, h2, h3⟩ | ⟨h1, h2⟩
  · rw [loadMod, if_neg (by simpa using hnm), h3] at h
    cases h
    refine ⟨by rw [hl]; simp, ?_⟩
    rw [loadMod, if_neg (by simpa using hnm), h3]
  · rw [loadMod, if_neg (by simpa using hnm), h2] at h
    simp only [Option.some.injEq, createMod] at h
    split at h
    · cases h
    · next m' e =>
      cases h
      obtain ⟨g1, -, g3, pl, g4, g5, -, -, -⟩ := initMod_spec e
      have hname : m.name = nm := by rw [g3]; exact lastSeg_noSlash hs
      refine ⟨mem_insPrio.mpr (.inl rfl), ?_⟩
      rw [loadMod, if_neg (by simpa using hnm)]
      have hp' : ∀ x ∈ insPrio m r.mods, Proper x.aliases := by
        intro x hx
        rcases mem_insPrio.mp hx with rfl | hx
        · rw [g5]; exact hd _ pl g4
        · exact hp x hx
      rcases findIn_spec hp' nm with ⟨pre, x, post, hl, k1, k2, k3⟩ | ⟨k1, -⟩
      · have hx : x ∈ insPrio m r.mods := by rw [hl]; simp
        have : x = m := by
          rcases mem_insPrio.mp hx with rfl | hx
          · rfl
          · exact absurd k1 (h1 x hx)
        subst this
        rw [k3]
      · exact absurd (.inl hname) (k1 m (mem_insPrio.mpr (.inl rfl)))

/-- single loads of names without a slash, and unloads -/
def SingleOp : Op → Prop
  | .load d nm _ => ProperDisk d ∧ slash ∉ nm
  | .loadAll _ _ => False
  | .unload _ => True

/-- **C46 (once, partial).** As long as modules are loaded one by one by names without a slash, no two registered modules have the
    same name, after any history. -/
theorem C46_no_duplicates_partial (rid : Str) (p : Params) (ops : List Op) (h : ∀ o ∈ ops, SingleOp o) :
    ∃ r, run (newReg rid p) ops = some r ∧ (r.mods.map Mod.name).Nodup := by
  have key : ∀ (ops : List Op) (r : Reg), (∀ o ∈ ops, SingleOp o) → RInv r → r.mods.Pairwise (fun a b => a.name ≠ b.name) →
      ∃ r', run r ops = some r' ∧ r'.mods.Pairwise (fun a b => a.name ≠ b.name) := by
    intro ops
    induction ops with
    | nil => intro r _ _ hn; exact ⟨r, rfl, hn⟩
    | cons o ops ih =>
      intro r hops I hn
      have ho := hops o (by simp)
      have hpo : ProperOp o := by cases o <;> simp_all [SingleOp, ProperOp]
      obtain ⟨r1, e1, I1⟩ := step_inv I hpo
      have hn1 : r1.mods.Pairwise (fun a b => a.name ≠ b.name) := by
        cases o with
        | loadAll => exact absurd ho id
        | unload mid => simp only [step, unloadMod, Option.some.injEq] at e1; rw [← e1]; exact hn.filter _
        | load d nm ok =>
          simp only [step, loadMod] at e1
          split at e1
          · simp at e1; rw [← e1]; exact hn
          · rcases findIn_spec I.proper nm with ⟨pre, m, post, hl, h1, h2, h3⟩ | ⟨h1, h2⟩
            · rw [h3] at e1; simp at e1; rw [← e1]; exact hn
            · rw [h2] at e1
              simp only [Option.map_some, Option.some.injEq, createMod] at e1
              split at e1
              · rw [← e1]; exact hn
              · next m e =>
                obtain ⟨-, -, g3, -⟩ := initMod_spec e
                have hname : m.name = nm := by rw [g3]; exact lastSeg_noSlash ho.2
                rw [← e1]
                refine insPrio_pairwise (fun a b h => Ne.symm h) hn fun x hx hh => h1 x hx (.inl ?_)
                rw [← hh, hname]
      obtain ⟨r2, e2, h2⟩ := ih r1 (fun x hx => hops x (by simp [hx])) I1 hn1
      exact ⟨r2, by simp [run, e1, e2], h2⟩
  obtain ⟨r, e, hn⟩ := key ops (newReg rid p) h (newReg_inv rid p) (by simp [newReg])
  exact ⟨r, e, List.pairwise_map.mpr hn⟩

/-- **C46.** A module unloaded is not found any more. -/
theorem C46_unloaded (r : Reg) (hp : ∀ m ∈ r.mods, Proper m.aliases) (mid : Nat) (nm : Str) (m : Mod)
    (h : getMod (unloadMod r mid) nm = some (some m)) : m.mid ≠ mid ∧ m ∈ r.mods := by
  unfold getMod at h
  split at h
  · cases h
  · have hp' : ∀ x ∈ (unloadMod r mid).mods, Proper x.aliases := fun x hx => hp x (List.mem_filter.mp hx).1
    rcases findIn_spec hp' nm with ⟨pre, m', post, hl, h1, h2, h3⟩ | ⟨-, h2⟩
    · rw [h3] at h
      cases h
      have : m ∈ (unloadMod r mid).mods := by rw [hl]; simp
      obtain ⟨a, b⟩ := List.mem_filter.mp this
      exact ⟨by simpa using b, a⟩
    · rw [h2] at h; cases h

theorem loadMods_mono (d : Str → Option Plugin) (es : List (Str × Bool)) (r : Reg) : (loadMods r d es).params = r.params ∧
    (loadMods r d es).base = r.base ∧ ∀ m ∈ r.mods, m ∈ (loadMods r d es).mods := by
  induction es generalizing r with
  | nil => exact ⟨rfl, rfl, fun m h => h⟩
  | cons e es ih =>
    obtain ⟨e, ok⟩ := e
    rw [loadMods]
    split
    · exact ih r
    · next nm _ =>
      obtain ⟨h1, h2, h3⟩ := ih (createMod r d nm ok).1
      have hc : (createMod r d nm ok).1.params = r.params ∧ (createMod r d nm ok).1.base = r.base ∧
          ∀ m ∈ r.mods, m ∈ (createMod r d nm ok).1.mods := by
        unfold createMod
        split
        · exact ⟨rfl, rfl, fun m h => h⟩
        · exact ⟨rfl, rfl, fun m h => mem_insPrio.mpr (.inr h)⟩
      exact ⟨h1.trans hc.1, h2.trans hc.2.1, fun m hm => h3 m (hc.2.2 m hm)⟩

/-- **C46.** After loading a directory, the module of each file named by prefix, name and suffix — upper or lower case — is registered
    under its name, provided it can be opened, has what is required and its initialisation succeeds. -/
theorem C46_directory (r : Reg) (d : Str → Option Plugin) (es : List (Str × Bool)) (e nm : Str) (he : (e, true) ∈ es)
    (hn : entryName r.params e = some nm) (hs : slash ∉ nm) (pl : Plugin) (hpl : d (fileOf r.params nm) = some pl)
    (hi : pl.hasInit = true) (hx : pl.hasExit = true) (hsy : ∀ s ∈ r.params.syms, s.2 = true → (pl.sym s.1).isSome) :
    ∃ m ∈ (loadMods r d es).mods, m.name = nm ∧ m.fullName = r.base ++ [slash] ++ nm ∧ m.aliases = pl.aliases ∧
      m.syms = r.params.syms.map (fun s => pl.sym s.1) := by
  have hls : ∀ l : List (Str × Bool), (∀ s ∈ l, s.2 = true → (pl.sym s.1).isSome) → loadSyms pl l = some (l.map fun s => pl.sym s.1) := by
    intro l
    induction l with
    | nil => intro _; rfl
    | cons s l ih =>
      intro h
      obtain ⟨s, must⟩ := s
      have h1 := h (s, must) (by simp)
      rw [loadSyms, if_neg, ih (fun x hx => h x (by simp [hx]))]
      · rfl
      · simp only [Bool.and_eq_true, not_and, Bool.not_eq_true, Option.isNone_eq_false_iff]; exact h1
  induction es generalizing r with
  | nil => cases he
  | cons x es ih =>
    obtain ⟨x, ok⟩ := x
    by_cases hxe : (e, true) = (x, ok)
    · cases hxe
      rw [loadMods, hn]
      have hinit : initMod r d nm true = some
          { setName r.base ⟨r.next, [], [], none, [], 0⟩ nm with
            aliases := pl.aliases, syms := r.params.syms.map (fun s => pl.sym s.1), prio := pl.prio.getD 0 } := by
        simp only [initMod, setName, lastSeg_noSlash hs, hpl, hi, hx, hls _ hsy]
        rfl
      refine ⟨{ setName r.base ⟨r.next, [], [], none, [], 0⟩ nm with
            aliases := pl.aliases, syms := r.params.syms.map (fun s => pl.sym s.1), prio := pl.prio.getD 0 },
        (loadMods_mono d es _).2.2 _ ?_, ?_⟩
      · simp only [createMod, hinit]; exact mem_insPrio.mpr (.inl rfl)
      · exact ⟨by simp only [setName]; exact lastSeg_noSlash hs, rfl, rfl, rfl⟩
    · have he' : (e, true) ∈ es := by
        rcases List.mem_cons.mp he with h | h
        · exact absurd h hxe
        · exact h
      rw [loadMods]
      split
      · exact ih r he' hn hpl hsy
      · next nm' _ =>
        have hc : (createMod r d nm' ok).1.params = r.params ∧ (createMod r d nm' ok).1.base = r.base := by
          unfold createMod; split <;> exact ⟨rfl, rfl⟩
        have := ih (createMod r d nm' ok).1 he' (by rw [hc.1]; exact hn) (by rw [hc.1]; exact hpl) (by rw [hc.1]; exact hsy)
        rw [hc.1, hc.2] at this
        exact this

theorem loadSyms_some {pl : Plugin} : ∀ {l : List (Str × Bool)} {v : List (Option Nat)}, loadSyms pl l = some v →
    v = l.map (fun s => pl.sym s.1) ∧ ∀ s ∈ l, s.2 = true → (pl.sym s.1).isSome
  | [], v, h => by cases h; simp
  | (s, must) :: l, v, h => by
    rw [loadSyms] at h
    split at h
    · cases h
    · next hm =>
      obtain ⟨v', h1, rfl⟩ := Option.map_eq_some_iff.mp h
      obtain ⟨h2, h3⟩ := loadSyms_some h1
      refine ⟨by rw [h2]; rfl, UStr.forall_cons ?_ h3⟩
      intro hmust
      simp only [Bool.and_eq_true, not_and, Bool.not_eq_true, Option.isNone_eq_false_iff] at hm
      exact hm hmust

/-- **C46.** A module returned that was not registered before comes from the file of its name, has functions to set it up and to
    end it, and offers all required symbols; its symbol vector has an entry for each symbol asked for, in that order, empty where an optional one is missing. -/
theorem C46_symbols (r r' : Reg) (d : Str → Option Plugin) (nm : Str) (ok : Bool) (m : Mod)
    (h : loadMod r d nm ok = some (r', some m)) (hnew : m ∉ r.mods) (hp : ∀ m ∈ r.mods, Proper m.aliases) :
    ∃ pl, d (fileOf r.params m.name) = some pl ∧ ok = true ∧ pl.hasInit = true ∧ pl.hasExit = true ∧
      m.syms = r.params.syms.map (fun s => pl.sym s.1) ∧ ∀ s ∈ r.params.syms, s.2 = true → (pl.sym s.1).isSome := by
  unfold loadMod at h
  split at h
  · cases h
  · rcases findIn_spec hp nm with ⟨pre, m', post, hl, h1, h2, h3⟩ | ⟨h1, h2⟩
    · rw [h3] at h; cases h
      exact absurd (by rw [hl]; simp) hnew
    · rw [h2] at h
      simp only [Option.some.injEq, createMod] at h
      split at h
      · cases h
      · next e =>
        cases h
        obtain ⟨-, -, -, pl, g4, -, -, g7, g8, hi⟩ := initMod_spec e
        obtain ⟨k1, k2⟩ := loadSyms_some g7
        exact ⟨pl, g4, g8, hi.1, hi.2, k1, k2⟩

/-- **C46.** Which files those are: not hidden, prefix and suffix in upper or lower case, a name of at most 255 characters between. -/
theorem C46_file_name (p : Params) (e nm : Str) (hl : e.length < 2 ^ 64) : entryName p e = some nm ↔
    e.head? ≠ some 46 ∧ nm.length ≤ 255 ∧
      ∃ a b, e = a ++ nm ++ b ∧ UStr.fold true a = UStr.fold true (p.pre.getD []) ∧ UStr.fold true b = UStr.fold true (p.suf.getD []) := by
  have hcs : ∀ e : Str, (∃ m, UStr.fold true e = UStr.fold true (p.pre.getD []) ++ m ++ UStr.fold true (p.suf.getD [])) ↔
      UStr.combstr e p.pre none p.suf true = some 0 := by
    intro e
    simp only [UStr.combstr, Option.getD_none, List.length_nil, Nat.add_zero]
    rw [← UStr.prefix_suffix_iff, UStr.fold_length, UStr.fold_length, UStr.fold_length]
    split
    · next h => exact ⟨fun h' => by omega, nofun⟩
    · next h =>
      have h1 := UStr.pm_iff (ic := true) (h := e) (p := p.pre.getD [])
      have h2 := UStr.sm_iff (ic := true) (h := e) (s := p.suf.getD []) (by omega)
      split
      · next hb => rw [Bool.and_eq_true, h1, h2] at hb; exact ⟨fun _ => rfl, fun _ => ⟨by omega, hb⟩⟩
      · next hb => rw [Bool.and_eq_true, h1, h2] at hb; exact ⟨fun h => absurd h.2 hb, nofun⟩
  have hsome : ∀ i, UStr.combstr e p.pre none p.suf true = some i → i = 0 := by
    intro i hi
    simp only [UStr.combstr] at hi
    split at hi
    · cases hi
    · split at hi
      · cases hi; rfl
      · cases hi
  unfold entryName
  split
  · next hh => exact ⟨nofun, fun h => absurd hh h.1⟩
  · next hh =>
    constructor
    · intro h
      split at h
      · cases h
      · next i hi =>
        have := hsome i hi; subst this
        obtain ⟨m, hm⟩ := (hcs e).mpr hi
        have hlen := congrArg List.length hm
        simp only [UStr.fold_length, List.length_append] at hlen
        simp only [UStr.copySubstr] at h
        rw [Nat.mod_eq_of_lt (by omega)] at h
        split at h
        · cases h
        · split at h
          · cases h
          · next hn =>
            have hnm := Option.some.inj h
            have hnl : nm.length = m.length := by rw [← hnm]; simp; omega
            refine ⟨hh, by omega, e.take (p.pre.getD []).length, e.drop ((p.pre.getD []).length + m.length), ?_, ?_, ?_⟩
            · rw [← hnm, List.append_assoc]
              have : e.length - (p.pre.getD []).length - (p.suf.getD []).length = m.length := by omega
              rw [this, ← List.drop_drop, List.take_append_drop, List.take_append_drop]
            · have := congrArg (List.take (p.pre.getD []).length) hm
              rw [List.append_assoc, ← UStr.fold_length true (p.pre.getD []), List.take_left, UStr.fold_length] at this
              rw [← this]; simp [UStr.fold, Spec.UStr.lowered]
            · have := congrArg (List.drop ((p.pre.getD []).length + m.length)) hm
              rw [UStr.fold_drop, this]
              have hk : (p.pre.getD []).length + m.length = (UStr.fold true (p.pre.getD []) ++ m).length := by
                simp [UStr.fold_length]
              rw [hk, List.drop_left]
    · rintro ⟨-, hnl, a, b, rfl, ha, hb⟩
      have hla : a.length = (p.pre.getD []).length := by rw [← UStr.fold_length true a, ha, UStr.fold_length]
      have hlb : b.length = (p.suf.getD []).length := by rw [← UStr.fold_length true b, hb, UStr.fold_length]
      have hc : UStr.combstr (a ++ nm ++ b) p.pre none p.suf true = some 0 :=
        (hcs _).mp ⟨UStr.fold true nm, by rw [UStr.fold_append, UStr.fold_append, ha, hb]⟩
      rw [hc]
      simp only [UStr.copySubstr, ← hla, ← hlb]
      simp only [List.length_append] at hl ⊢
      have e1 : a.length + nm.length + b.length - a.length - b.length = nm.length := by omega
      rw [e1, Nat.mod_eq_of_lt (by omega), if_neg (by omega), if_neg (by omega), List.append_assoc, List.drop_left, List.take_left]

/-- a directory with one module -/
def oneDisk : Str → Option Plugin := fun f =>
  if f = txt "a.so" then some ⟨none, some (declared [txt "alpha", txt "al"]), true, true, fun _ => none⟩ else none

def soParams : Params := ⟨none, some (txt ".so"), []⟩

/-- **C46.** Loading the modules of a directory again registers them twice — so does a directory with "a.so" and "a.SO". -/
theorem C46_counterexample_directory_twice :
    (run (newReg (txt "type") soParams) [.loadAll oneDisk [(txt "a.so", true)], .loadAll oneDisk [(txt "a.so", true)]]).map
      (fun r => r.mods.map Mod.name) = some [txt "a", txt "a"] ∧
    (run (newReg (txt "type") soParams) [.loadAll oneDisk [(txt "a.SO", true), (txt "a.so", true)]]).map
      (fun r => r.mods.map Mod.name) = some [txt "a", txt "a"] := by
  constructor <;> decide +kernel

/-- **C46.** And loading by a name with a slash loads the file named by what follows the slash, each time again. -/
theorem C46_counterexample_slash :
    (run (newReg (txt "type") soParams) [.load oneDisk (txt "a") true, .load oneDisk (txt "x/a") true, .load oneDisk (txt "x/a") true]).map
      (fun r => r.mods.map Mod.name) = some [txt "a", txt "a", txt "a"] := by decide +kernel

/-! Full names -/

theorem pathText_nil : pathText [] = [] := rfl

theorem pathText_cons (a : Str) (l : List Str) : pathText (a :: l) = 47 :: (a ++ pathText l) := by simp [pathText]

theorem pathText_append (a b : List Str) : pathText (a ++ b) = pathText a ++ pathText b := by simp [pathText]

theorem pathText_head (l : List Str) : pathText l = [] ∨ ∃ r, pathText l = 47 :: r := by
  cases l with
  | nil => exact .inl rfl
  | cons a l => exact .inr ⟨_, pathText_cons a l⟩

theorem seg_unique {a b : Str} (ha : Part a) (hb : Part b) {x y : Str} (hx : x = [] ∨ ∃ r, x = 47 :: r) (hy : y = [] ∨ ∃ r, y = 47 :: r)
    (h : a ++ x = b ++ y) : a = b ∧ x = y := by
  have key : ∀ {a : Str}, Part a → ∀ {x : Str}, (x = [] ∨ ∃ r, x = 47 :: r) → (a ++ x).takeWhile (· ≠ 47) = a := by
    intro a ha x hx
    rw [UStr.takeWhile_all (fun c hc => by simp; rintro rfl; exact ha hc)]
    rcases hx with rfl | ⟨r, rfl⟩ <;> simp
  have e : a = b := by rw [← key ha hx, h, key hb hy]
  subst e
  exact ⟨rfl, by simpa using h⟩

theorem pathText_inj : ∀ {l l' : List Str}, (∀ p ∈ l, Part p) → (∀ p ∈ l', Part p) → pathText l = pathText l' → l = l' := by
  intro l
  induction l with
  | nil =>
    intro l' _ _ h
    cases l' with
    | nil => rfl
    | cons a l' => rw [pathText_cons] at h; cases h
  | cons a l ih =>
    intro l' h1 h2 h
    cases l' with
    | nil => rw [pathText_cons] at h; cases h
    | cons b l' =>
      rw [pathText_cons, pathText_cons] at h
      obtain ⟨e1, e2⟩ := seg_unique (h1 a (by simp)) (h2 b (by simp)) (pathText_head l) (pathText_head l') (List.cons.inj h).2
      rw [e1, ih (fun p hp => h1 p (by simp [hp])) (fun p hp => h2 p (by simp [hp])) e2]

/-- the registry is reached by that path, and its modules are named accordingly -/
def AtPath (r : Reg) (path : List Str) : Prop :=
  r.base = pathText path ∧ (∀ p ∈ path, Part p) ∧ ∀ m ∈ r.mods, Part m.name ∧ m.fullName = pathText (path ++ [m.name])

/-- **C71.** A registry that is created and filled is at the path of its own id: every module's full name is that of the registry and
    its own. -/
theorem C71_loaded (rid : Str) (p : Params) (hr : Part rid) (ops : List Op)
    (hops : ∀ o ∈ ops, match o with | .load _ nm _ => Part nm | .loadAll _ es => ∀ e ∈ es, Part e.1 | .unload _ => True) (r : Reg)
    (h : run (newReg rid p) ops = some r) : AtPath r [rid] := by
  have create : ∀ {r : Reg} (d : Str → Option Plugin) {nm : Str} (ok : Bool), Part nm → AtPath r [rid] → AtPath (createMod r d nm ok).1 [rid] := by
    intro r d nm ok hn A
    unfold createMod
    cases e : initMod r d nm ok with
    | none => exact A
    | some m =>
      obtain ⟨-, g2, g3, -⟩ := initMod_spec e
      have hname : m.name = nm := by rw [g3]; exact lastSeg_noSlash hn
      refine ⟨A.1, A.2.1, fun x hx => ?_⟩
      rcases mem_insPrio.mp hx with rfl | hx
      · refine ⟨hname ▸ hn, ?_⟩
        rw [g2, hname, A.1, pathText_append, pathText_cons nm [], pathText_nil]; simp [slash]
      · exact A.2.2 x hx
  have entry : ∀ {p : Params} {e nm : Str}, Part e → entryName p e = some nm → Part nm := by
    intro p e nm he hn
    unfold entryName at hn
    split at hn
    · cases hn
    · split at hn
      · cases hn
      · simp only [UStr.copySubstr] at hn
        split at hn
        · cases hn
        · split at hn
          · cases hn
          · cases hn
            intro hm
            exact he (List.mem_of_mem_drop (List.mem_of_mem_take hm))
  have all : ∀ (d : Str → Option Plugin) (es : List (Str × Bool)) {r : Reg}, (∀ e ∈ es, Part e.1) → AtPath r [rid] →
      AtPath (loadMods r d es) [rid] := by
    intro d es
    induction es with
    | nil => intro r _ A; exact A
    | cons e es ih =>
      intro r hes A
      obtain ⟨e, ok⟩ := e
      rw [loadMods]
      split
      · exact ih (fun x hx => hes x (by simp [hx])) A
      · next nm hn => exact ih (fun x hx => hes x (by simp [hx])) (create d ok (entry (hes (e, ok) (by simp)) hn) A)
  have steps : ∀ (ops : List Op) (r0 r : Reg),
      (∀ o ∈ ops, match o with | .load _ nm _ => Part nm | .loadAll _ es => ∀ e ∈ es, Part e.1 | .unload _ => True) →
      AtPath r0 [rid] → run r0 ops = some r → AtPath r [rid] := by
    intro ops
    induction ops with
    | nil => intro r0 r _ A h; cases h; exact A
    | cons o ops ih =>
      intro r0 r hops A h
      simp only [run] at h
      obtain ⟨r1, e1, e2⟩ := Option.bind_eq_some_iff.mp h
      refine ih r1 r (fun x hx => hops x (by simp [hx])) ?_ e2
      have ho := hops o (by simp)
      cases o with
      | load d nm ok =>
        simp only [step, loadMod] at e1
        split at e1
        · simp at e1; rw [← e1]; exact A
        · split at e1
          · cases e1
          · simp at e1; rw [← e1]; exact A
          · simp at e1; rw [← e1]; exact create d ok ho A
      | loadAll d es => simp only [step, Option.some.injEq] at e1; rw [← e1]; exact all d es ho A
      | unload mid =>
        simp only [step, unloadMod, Option.some.injEq] at e1
        rw [← e1]
        exact ⟨A.1, A.2.1, fun m hm => A.2.2 m (List.mem_filter.mp hm).1⟩
  refine steps ops (newReg rid p) r hops ⟨?_, by simpa using hr, by simp [newReg]⟩ h
  simp [newReg, pathText, slash]

/-- **C71.** Attaching a registry to a module moves it, with all modules already loaded in it, below the module's path. -/
theorem C71_attached (m : Mod) (mpath : List Str) (sub : Reg) (rid : Str) (hm : m.fullName = pathText mpath)
    (hmp : ∀ p ∈ mpath, Part p) (hlen : 2 ≤ mpath.length) (hs : AtPath sub [rid]) :
    AtPath (addSubreg m sub true).1 (mpath ++ [rid]) ∧
    (addSubreg m sub true).1.mods.map Mod.name = sub.mods.map Mod.name := by
  have hb : m.fullName ++ sub.base = pathText (mpath ++ [rid]) := by rw [hm, hs.1, pathText_append]
  have hparts : ∀ p ∈ mpath ++ [rid], Part p := by
    intro p hp
    rcases List.mem_append.mp hp with hp | hp
    · exact hmp p hp
    · exact hs.2.1 p hp
  have hcount : ∀ l : List Str, (∀ p ∈ l, Part p) → (pathText l).count 47 = l.length := by
    intro l
    induction l with
    | nil => intro _; rfl
    | cons a l ih =>
      intro h
      have ha : a.count 47 = 0 := List.count_eq_zero.mpr (h a (by simp))
      rw [pathText_cons, List.count_cons, List.count_append, ha, ih (fun p hp => h p (by simp [hp]))]
      simp
  have hnp : ∀ x ∈ sub.mods, (m.fullName ++ sub.base).isPrefixOf x.fullName = false := by
    intro x hx
    obtain ⟨h1, h2⟩ := hs.2.2 x hx
    cases e : (m.fullName ++ sub.base).isPrefixOf x.fullName with
    | false => rfl
    | true =>
      have hp := List.isPrefixOf_iff_prefix.mp e
      have hc := hp.sublist.count_le 47
      rw [hb, h2, hcount _ hparts, hcount _ (by
        intro p hp
        rcases List.mem_append.mp hp with hp | hp
        · exact hs.2.1 p hp
        · rw [List.mem_singleton.mp hp]; exact h1)] at hc
      simp at hc
      omega
  have hmods : (addSubreg m sub true).1.mods = sub.mods.map fun x => setName (m.fullName ++ sub.base) x x.name := by
    simp only [addSubreg, if_true, resetMods]
    apply List.map_congr_left
    intro x hx
    rw [hnp x hx]; rfl
  have hset : ∀ x ∈ sub.mods, (setName (m.fullName ++ sub.base) x x.name).name = x.name := fun x hx =>
    lastSeg_noSlash (hs.2.2 x hx).1
  refine ⟨⟨hb, hparts, ?_⟩, ?_⟩
  · intro x hx
    rw [hmods] at hx
    obtain ⟨y, hy, rfl⟩ := List.mem_map.mp hx
    rw [hset y hy]
    refine ⟨(hs.2.2 y hy).1, ?_⟩
    simp only [setName]
    rw [hb, pathText_append (mpath ++ [rid]), pathText_cons, pathText_nil]; simp [slash]
  · rw [hmods, List.map_map]
    exact List.map_congr_left hset

/-- **C71.** Full names tell modules apart: two modules with the same full name, in whatever registries, have the same name and their
    registries are at the same path. -/
theorem C71_distinct (r r' : Reg) (path path' : List Str) (h : AtPath r path) (h' : AtPath r' path') (m m' : Mod) (hm : m ∈ r.mods)
    (hm' : m' ∈ r'.mods) (e : m.fullName = m'.fullName) : path = path' ∧ m.name = m'.name := by
  obtain ⟨a1, a2⟩ := h.2.2 m hm
  obtain ⟨b1, b2⟩ := h'.2.2 m' hm'
  rw [a2, b2] at e
  have := pathText_inj (l := path ++ [m.name]) (l' := path' ++ [m'.name])
    (by intro p hp; rcases List.mem_append.mp hp with hp | hp
        · exact h.2.1 p hp
        · rw [List.mem_singleton.mp hp]; exact a1)
    (by intro p hp; rcases List.mem_append.mp hp with hp | hp
        · exact h'.2.1 p hp
        · rw [List.mem_singleton.mp hp]; exact b1) e
  have h2 := List.append_inj' this rfl
  exact ⟨h2.1, by simpa using h2.2⟩

/-- C71: attaching a registry succeeds if and only if it becomes part of the tree; otherwise its own path is as before. -/
theorem C71_attach_result (m : Mod) (sub : Reg) (ok : Bool) :
    (addSubreg m sub ok).2 = ok ∧ (ok = false → (addSubreg m sub ok).1.base = sub.base) := by
  cases ok
  · exact ⟨rfl, fun _ => rfl⟩
  · exact ⟨rfl, nofun⟩

/-- **C71.** The counterexample: if the registry cannot be attached in the end, its base name is set back, but modules may keep
    their new full names — if the module to attach to belongs to a registry of the same id. -/
theorem C71_counterexample_failed_attach :
    let sub : Reg := (loadMods (newReg (txt "t") soParams) oneDisk [(txt "a.so", true)])
    let m : Mod := ⟨0, txt "/t/m", txt "m", none, [], 0⟩
    AtPath sub [txt "t"] ∧ (addSubreg m sub false).1.base = txt "/t" ∧
      (addSubreg m sub false).1.mods.map Mod.fullName = [txt "/t/m/t/a"] := by
  refine ⟨⟨by decide +kernel, by unfold Part; decide +kernel, ?_⟩, by decide +kernel, by decide +kernel⟩
  have e : (loadMods (newReg (txt "t") soParams) oneDisk [(txt "a.so", true)]).mods.map (fun m => (m.name, m.fullName)) =
      [(txt "a", txt "/t/a")] := by decide +kernel
  intro m hm
  have : (m.name, m.fullName) ∈ [(txt "a", txt "/t/a")] := e ▸ List.mem_map.mpr ⟨m, hm, rfl⟩
  simp only [List.mem_singleton, Prod.mk.injEq] at this
  rw [this.1, this.2]
  exact ⟨by unfold Part; decide +kernel, by decide +kernel⟩

namespace ModRegExample

def twoDisk : Str → Option Plugin := fun f =>
  if f = txt "dm.so" then some ⟨some (-1), some (declared [txt "device_mapper"]), true, true, fun _ => some 7⟩
  else if f = txt "md.so" then some ⟨none, none, true, true, fun _ => some 8⟩
  else none

example : ProperDisk twoDisk := by
  intro f pl h
  unfold twoDisk at h
  split at h
  · cases h
    exact .inr ⟨[txt "device_mapper"], [], by simp [ProperAliases]; decide +kernel, by simp⟩
  · split at h
    · cases h; exact .inl rfl
    · cases h

def afterAll : Option Reg := run (newReg (txt "type") ⟨none, some (txt ".so"), [(txt "ident", true)]⟩)
  [.loadAll twoDisk [(txt ".x.so", true), (txt "md.so", true), (txt "dm.SO", true), (txt "README", true)],
   .load twoDisk (txt "device_mapper") true]

/-- the module of smaller priority number comes first, is found by its alias, and is not loaded again -/
example : afterAll.map (fun r => r.mods.map Mod.fullName) = some [txt "/type/dm", txt "/type/md"] ∧
    afterAll.map (fun r => r.mods.map Mod.syms) = some [[some 7], [some 8]] ∧
    afterAll.map (fun r => (getMod r (txt "device_mapper")).map (Option.map Mod.name)) = some (some (some (txt "dm"))) := by
  refine ⟨?_, ?_, ?_⟩ <;> decide +kernel

/-- submodules of a module -/
example : let sub := loadMods (newReg (txt "dm") soParams) oneDisk [(txt "a.so", true)]
    (addSubreg ⟨0, txt "/type/dm", txt "dm", none, [], 0⟩ sub true).1.mods.map Mod.fullName = [txt "/type/dm/dm/a"] := by decide +kernel

end ModRegExample
end Sid.Props
