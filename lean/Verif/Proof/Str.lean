import Verif.Model.Str

namespace Sid

theorem strLt_irrefl (a : Str) : strLt a a = false := by
  induction a with
  | nil => rfl
  | cons x xs ih => simp [strLt, ih]

theorem strLt_trans {a b c : Str} (h1 : strLt a b = true) (h2 : strLt b c = true) : strLt a c = true := by
  induction a generalizing b c with
  | nil =>
    cases c with
    | nil => cases b <;> simp [strLt] at h2
    | cons => rfl
  | cons x xs ih =>
    cases b with
    | nil => simp [strLt] at h1
    | cons y ys =>
      cases c with
      | nil => simp [strLt] at h2
      | cons z zs =>
        simp only [strLt, UInt8.lt_iff_toNat_lt] at *
        split at h1
        · split at h2
          · rw [if_pos (by omega)]
          · split at h2
            · simp at h2
            · rw [if_pos (by omega)]
        · split at h1
          · simp at h1
          · split at h2
            · rw [if_pos (by omega)]
            · split at h2
              · simp at h2
              · rw [if_neg (by omega), if_neg (by omega)]
                exact ih h1 h2

theorem strLt_asymm {a b : Str} (h : strLt a b = true) : strLt b a = false := by
  cases hb : strLt b a with
  | false => rfl
  | true => have := strLt_trans h hb; rw [strLt_irrefl] at this; simp at this

theorem strLt_total {a b : Str} (h1 : strLt a b = false) (h2 : strLt b a = false) : a = b := by
  induction a generalizing b with
  | nil => cases b with
    | nil => rfl
    | cons => simp [strLt] at h1
  | cons x xs ih =>
    cases b with
    | nil => simp [strLt] at h2
    | cons y ys =>
      simp only [strLt, UInt8.lt_iff_toNat_lt] at *
      split at h1
      · simp at h1
      · split at h2
        · simp at h2
        · rw [if_neg (by omega)] at h1
          rw [ih h1 h2, UInt8.toNat_inj.mp (show x.toNat = y.toNat by omega)]

/-- `¬ b < a` and `b < c` give `a < c` -/
theorem strLt_of_le_of_lt {a b c : Str} (h1 : strLt b a = false) (h2 : strLt b c = true) : strLt a c = true := by
  cases h : strLt a b with
  | true => exact strLt_trans h h2
  | false => rw [strLt_total h h1]; exact h2

theorem strLt_of_lt_of_le {a b c : Str} (h1 : strLt a b = true) (h2 : strLt c b = false) : strLt a c = true := by
  cases h : strLt b c with
  | true => exact strLt_trans h1 h
  | false => rw [← strLt_total h h2]; exact h1

theorem strLt_ne {a b : Str} (h : strLt a b = true) : a ≠ b := by
  rintro rfl; rw [strLt_irrefl] at h; simp at h

theorem strPrefix_iff (p s : Str) : strPrefix p s = true ↔ p <+: s := by
  induction p generalizing s with
  | nil => simp [strPrefix]
  | cons x xs ih =>
    cases s with
    | nil => simp [strPrefix]
    | cons y ys => simp [strPrefix, ih, List.cons_prefix_cons]

/-- a string with prefix `p` is not below `p` -/
theorem strLt_prefix {p s : Str} (h : p <+: s) : strLt s p = false := by
  induction p generalizing s with
  | nil => cases s <;> rfl
  | cons x xs ih =>
    cases s with
    | nil => simp at h
    | cons y ys =>
      obtain ⟨rfl, h'⟩ := List.cons_prefix_cons.mp h
      simp [strLt, ih h']

/-- strings between two strings with prefix `p` have prefix `p` -/
theorem strLt_prefix_between {p a b : Str} (h1 : strLt a p = false) (h2 : strLt a b = true) (h3 : p <+: b) : p <+: a := by
  induction p generalizing a b with
  | nil => simp
  | cons x xs ih =>
    cases b with
    | nil => simp at h3
    | cons z zs =>
      obtain ⟨rfl, h3'⟩ := List.cons_prefix_cons.mp h3
      cases a with
      | nil => simp [strLt] at h1
      | cons y ys =>
        simp only [strLt, UInt8.lt_iff_toNat_lt] at h1 h2
        split at h1
        · simp at h1
        · rename_i hyx
          split at h2
          · omega
          · split at h2
            · simp at h2
            · rw [if_neg (by omega)] at h1
              have : y = x := UInt8.toNat_inj.mp (by omega)
              subst this
              exact List.cons_prefix_cons.mpr ⟨rfl, ih h1 h2 h3'⟩

end Sid
