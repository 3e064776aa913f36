import Verif.Mara.GetlineProps

/-!
# Reading files: examples and what goes wrong

What `js_buf_getline` does with a line that is too long depends on where in the file the line
stands: it hangs (`long_line_hangs`), or refuses the line (`long_line_refused`), or cuts it
short without a word (`long_line_cut`).
-/

namespace Mara.Getline

open Spec.FileLines Spec.MaraRc
open Mara.Rc (b known name?)

/-- A line of `n` bytes and its end. -/
def row (n : Nat) (c : UInt8) : List UInt8 := List.replicate n c ++ [10]

theorem row_whole (n : Nat) (c : UInt8) (h : ¬ ends c) : Whole (row n c) :=
  ⟨List.replicate n c, 10, rfl, fun x hx => (List.mem_replicate.1 hx).2 ▸ h, Or.inl rfl⟩

theorem a_not : ¬ ends 97 := by simp [ends]
theorem b_not : ¬ ends 98 := by simp [ends]

/-- Five lines, the last of which lies in two blocks. -/
example : readAll 256 8 (opened (List.replicate 5 (row 250 97)).flatten) [] =
    some (List.replicate 5 (row 250 97), true) := by
  have := readAll_exact 256 (by omega) (List.replicate 5 (row 250 97)) []
    (by
      intro l hl
      rw [(List.mem_replicate.1 hl).2]
      exact ⟨row_whole _ _ a_not, by decide +kernel⟩)
    (by simp [OneLine]) (by decide) (by decide +kernel) 8 (by decide)
  rw [List.append_nil] at this
  exact this.trans (by simp only [tail, if_true, List.append_nil])

/-- A last line without line end is torn in two at the start of a block: the 19 bytes before it
and the 81 after it are taken for two lines. -/
theorem unterminated_torn :
    readAll 256 8 (opened ((List.replicate 5 (row 200 97)).flatten ++ List.replicate 100 98)) [] =
    some (List.replicate 5 (row 200 97) ++ [List.replicate 19 98, List.replicate 81 98], true) := by
  have := readAll_exact 256 (by omega) (List.replicate 5 (row 200 97)) (List.replicate 100 98)
    (by
      intro l hl
      rw [(List.mem_replicate.1 hl).2]
      exact ⟨row_whole _ _ a_not, by decide +kernel⟩)
    (fun x hx => (List.mem_replicate.1 hx).2 ▸ b_not) (by decide +kernel) (by decide +kernel) 8 (by decide)
  exact this.trans (by decide +kernel)

/-- A line of 401 bytes of which 20 stand before the start of a block: the 20 bytes are taken
for the line. -/
theorem long_line_cut :
    readAll 256 9 (opened ((List.replicate 4 (row 250 97)).flatten ++ row 400 98 ++ row 1 97)) [] =
    some (List.replicate 4 (row 250 97) ++ [List.replicate 20 98, row 1 97], true) := by
  decide +kernel

/-- A line of 401 bytes of which 271 stand before the start of a block is refused. -/
theorem long_line_refused :
    readAll 256 9 (opened ((List.replicate 3 (row 250 97)).flatten ++ row 400 98 ++ row 1 97)) [] =
    some (List.replicate 3 (row 250 97), false) := by
  decide +kernel

/-- A configuration file with a comment of 256 bytes is never read to its end. -/
example : ∀ n, mararc n (List.replicate 256 35 ++ 10 :: b "hide_disclaimer = \"YES\"\n") = none :=
  fun n => long_line_hangs _ _ _ (fun x hx => (List.mem_replicate.1 hx).2 ▸ (by simp [ends]))
    (Or.inl rfl) (by decide +kernel) (by decide +kernel) n

/-- A configuration file, from its bytes. -/
example : ∀ n, 3 < n →
    mararc n (b "# mararc\nchroot_dir = \"/etc/maradns\"\n") =
      some (.go ⟨⟨fun m => if m = b "chroot_dir" then b "/etc/maradns" else [],
        fun _ => none⟩, none⟩) := by
  intro n hn
  have h := mararc_exact
    [(⟨[], [], [], [], some (b " mararc")⟩, .note),
     (⟨[], [32], [32], [], none⟩, .text (b "chroot_dir") (b "/etc/maradns") false)]
    (by
      intro x hx
      simp only [List.mem_cons, List.not_mem_nil, or_false] at hx
      rcases hx with rfl | rfl
      · refine ⟨⟨rfl, rfl, rfl, rfl, ?_⟩, trivial, by decide +kernel, by simp [name?]⟩
        intro c hc
        cases hc
        decide +kernel
      · refine ⟨⟨rfl, by decide +kernel, by decide +kernel, rfl, by simp⟩,
          ⟨by decide +kernel, by decide +kernel, by decide +kernel⟩, by decide +kernel, ?_⟩
        have : ¬ b "chroot_dir" = b "ERROR" := by decide +kernel
        simpa [name?] using this)
    n (by simpa using hn)
  have e1 : (List.map (fun x : Layout × Stmt => x.2.line x.1)
      [(⟨[], [], [], [], some (b " mararc")⟩, .note),
       (⟨[], [32], [32], [], none⟩, .text (b "chroot_dir") (b "/etc/maradns") false)]).flatten =
      b "# mararc\nchroot_dir = \"/etc/maradns\"\n" := by decide +kernel
  rw [e1] at h
  rw [h]
  have hk : b "chroot_dir" ∈ known.vars := by decide +kernel
  simp only [List.map_cons, List.map_nil, meaning, Stmt.does, hk, not_true, if_false,
    Bool.false_eq_true]
  congr 4
  funext m
  simp only [Function.update_apply, Settings.none]

end Mara.Getline
