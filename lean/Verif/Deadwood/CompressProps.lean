import Verif.Deadwood.CompressSpec
/-!
# Compressed names read back

Theorems about `dwc_compress_dlabels` and `dwc_decomp_dname`.
-/

namespace Dw
namespace DwStr
open Spec

/-- Reading a name whose pointers do not lead to pointers takes at most two steps
for each label and one more. -/
theorem _root_.Spec.OneHop.steps {p q : Mem} {plen qlen : Nat} {b : Bool} {i : Nat} {ls : List (List UInt8)}
    (h : OneHop p q plen qlen b i ls) :
    ∃ n, Spec.NameAt p q plen qlen n b i ls ∧ n ≤ 2 * ls.length + 1 ∧
      ((∃ z, sel p q b i = some z ∧ z < 64) → n ≤ 2 * ls.length) := by
  induction h with
  | root h => exact ⟨0, ⟨_, _, .here, h⟩, by omega, fun _ => by omega⟩
  | label h _ ih =>
    obtain ⟨n, ⟨b', i', w, w0⟩, h1, -⟩ := ih
    exact ⟨n + 1, ⟨b', i', .label h w, w0⟩, by simp; omega, fun _ => by simp; omega⟩
  | @pointer i x _ _ _ _ _ h1 h2 h3 h4 h5 h6 _ ih =>
    obtain ⟨n, ⟨b', i', w, w0⟩, -, h7⟩ := ih
    have := h7 ⟨_, h5, h6⟩
    refine ⟨n + 1, ⟨b', i', .pointer h1 h2 h3 h4 w, w0⟩, by omega, ?_⟩
    rintro ⟨z, hz, hz'⟩
    have : some x = some z := by rw [← h1, ← hz]; rfl
    cases this
    exact absurd hz' (not_lt64 h2)

theorem endsAt_unique {m : Mem} {i e e' : Nat} (h : EndsAt m i e) (h' : EndsAt m i e') : e = e' := by
  have small : ∀ {l : List UInt8} {i}, LabelAt m i l → ∀ {x : UInt8}, m i = some x → x ≠ 0 ∧ ¬ 192 ≤ x := by
    intro l i hl x hx
    rw [hl.len] at hx
    cases hx
    have := labelAt_byte hl
    exact ⟨this.2.2, this.1⟩
  induction h generalizing e' with
  | root h =>
    cases h' with
    | root => rfl
    | pointer g1 g2 => rw [h] at g1; cases g1; exact absurd g2 (by decide)
    | label g => exact absurd rfl (small g h).1
  | pointer h1 h2 =>
    cases h' with
    | root g => rw [h1] at g; cases g; exact absurd h2 (by decide)
    | pointer => rfl
    | label g => exact absurd h2 (small g h1).2
  | @label i l e hl _ ih =>
    cases h' with
    | root g => exact absurd rfl (small hl g).1
    | pointer g1 g2 => exact absurd g2 (small hl g1).2
    | @label _ l' _ hl' g =>
      have : l.length = l'.length := by
        have h1 := ofNat_len hl.le
        have h2 := ofNat_len hl'.le
        have h3 := hl.len
        rw [hl'.len] at h3
        injection h3 with h3
        rw [← h1, ← h2, h3]
      rw [← this] at g
      exact ih g

/-- What the compressor may start from: every entry of its stack is the place of a
name in the question or in the output. -/
def StackOk (M : Mem) (c q s : DwStr) : Prop :=
  ∃ es, s.contents = enc16 es ∧ ∀ e ∈ es, ∃ ls, GoodE M c.len q e ls

/-- **C28 (one name, partial).** A name the compressor writes reads back as the same
name ignoring case, if no part of it is immediately repeated (see
`compress_self_loop`), 64 bytes are left in the output, and it has fewer than 100
labels.  The stack stays right for the next name. -/
theorem compressName_readback_partial {u q c s : DwStr} (hu : Usable u) (hq : Usable q) (hc : Usable c)
    (hs : Usable s) (hst : StackOk c.mem c q s) (hbig : c.max + q.contents.length + 14 ≤ 16384)
    {uo : Nat} {us : List (List UInt8)} (hP : PlainAt u.mem uo us) (hlen : us.length < 100)
    (hno : NoRepeat us) {junk : List UInt8} {r : Nat} {c' s' : DwStr}
    (hres : compressName u q junk 300 uo c s = .ok (r, c', s')) (hroom : c'.contents.length + 64 < c.max) :
    r = uo + (encName us).length ∧ StackOk c'.mem c' q s' ∧ Usable c' ∧ Usable s' ∧
    (∃ x, c'.contents = c.contents ++ x) ∧
    ∃ ls, SameName us ls ∧
      ∀ {t out : DwStr} (_ : Usable t) (_ : Usable out) (junk' : List UInt8) (tail : List UInt8),
        t.contents = c'.contents ++ tail →
        out.contents.length + (encName ls).length < out.max →
        ∃ d o, decompDname t out q 0 c.contents.length junk' = .ok ((c'.contents.length : Nat), d, o) ∧
          o.contents = out.contents ++ encName ls := by
  obtain ⟨es, he1, he2⟩ := hst
  rw [hq.clen] at hbig
  have hgr : c'.contents.length = c'.len := by
    rcases compressName_safe hu hq junk 300 uo hc hs with e | ⟨e', c'', s'', e, g, -⟩
    · rw [e] at hres; cases hres
    · rw [e] at hres; cases hres; exact g.1.clen
  rw [hgr] at hroom
  obtain ⟨h1, h2, h3, h4, h5, ⟨x, h6, -, -⟩, ⟨ls, h7, h8⟩, h9, es', h10, h11⟩ :=
    compressName_spec hu hq junk us 300 uo c s c.mem [] es hc hs (fun _ _ h => h) (by omega) (by omega) hP
      (by simpa using hno) hbig he1 (fun e he => Or.inl (he2 e he)) hres hroom
  have hmem : MemLe (ext c.mem c.len c'.mem) c'.mem := ext_mem_le (fun _ _ h => h) h6
  refine ⟨h1, ⟨es', h10, fun e he => ?_⟩, h2, h3, ⟨x, h6⟩, ls, h7, ?_⟩
  · obtain ⟨ls, hg⟩ := h11 e he
    exact ⟨ls, hg.mono hmem (Nat.le_refl _)⟩
  · intro t out ht ho junk' tail htc hfit
    have hmt : MemLe (ext c.mem c.len c'.mem) t.mem := fun i v hv => mem_append htc _ _ (hmem _ _ hv)
    have htl : c'.len ≤ t.len := by rw [← ht.clen, htc, ← hgr]; simp
    obtain ⟨n, hn, hnle, -⟩ := (h8.mono hmt htl).oneHop.steps
    have hll : ls.length = us.length := by simpa using (congrArg List.length h7).symm
    obtain ⟨e, o, k1, k2, -, -, -, k3⟩ := decompDname_exact ht hq ho (by omega) hn junk'
    have hends : ∀ {i e}, EndsAt (ext c.mem c.len c'.mem) i e → EndsAt t.mem i e := by
      intro i e h
      induction h with
      | root h => exact .root (hmt _ _ h)
      | pointer h g => exact .pointer (hmt _ _ h) g
      | label h _ ih => exact .label (LabelAt.mono hmt h) ih
    have he := endsAt_unique k2 (hends h9)
    subst he
    rw [hc.clen, hgr]
    exact ⟨_, o, k1, k3 hfit⟩

/-- **Finding (C28 fails).** With zero bytes in the unused part of the output, the
name `b.b.` is written as the label `b` and a pointer to itself; reading it back
does not end. -/
theorem compress_self_loop :
    compressName (ofBytes (encName [[98], [98]])) exQ [] 300 0 ⟨0, 20, List.replicate 22 0⟩
      ⟨0, 20, List.replicate 22 0⟩ =
      .ok (5, ⟨4, 20, [1, 98, 0xc0, 19] ++ List.replicate 18 0⟩, ⟨2, 20, List.replicate 22 0⟩) ∧
    ∀ n, ∃ ls b i, Walk (ofBytes [1, 98, 0xc0, 19]).mem exQ.mem 4 5 n false 0 ls b i := by
  refine ⟨by decide +kernel, ?_⟩
  have hl : LabelAt (ofBytes [1, 98, 0xc0, 19]).mem 0 [98] :=
    ⟨by decide, by decide, by decide +kernel, by decide +kernel⟩
  have step2 : ∀ n, (∃ ls b i, Walk (ofBytes [1, 98, 0xc0, 19]).mem exQ.mem 4 5 n false 0 ls b i) →
      ∃ ls b i, Walk (ofBytes [1, 98, 0xc0, 19]).mem exQ.mem 4 5 (n + 1) false 2 ls b i := by
    rintro n ⟨ls, b, i, h⟩
    exact ⟨ls, b, i, .pointer (x := 0xc0) (y := 19) (by decide +kernel) (by decide) (by decide +kernel)
      (by decide +kernel) h⟩
  have key : ∀ n, (∃ ls b i, Walk (ofBytes [1, 98, 0xc0, 19]).mem exQ.mem 4 5 n false 0 ls b i) ∧
      (∃ ls b i, Walk (ofBytes [1, 98, 0xc0, 19]).mem exQ.mem 4 5 n false 2 ls b i) := by
    intro n
    induction n with
    | zero => exact ⟨⟨_, _, _, .here⟩, ⟨_, _, _, .here⟩⟩
    | succ n ih =>
      obtain ⟨ls, b, i, h⟩ := ih.2
      exact ⟨⟨[98] :: ls, b, i, .label hl h⟩, step2 n ih.1⟩
  exact fun n => (key n).1

/-! ## Example -/

/-- The stack for the question `a.` and an empty output. -/
example : StackOk (⟨0, 100, List.replicate 102 7⟩ : DwStr).mem ⟨0, 100, List.replicate 102 7⟩ exQ
    ⟨2, 20, [128, 0] ++ List.replicate 20 0⟩ :=
  ⟨[32768], by decide +kernel, by
    intro e he
    simp at he
    subst he
    exact ⟨[[97]], by simp, Or.inl ⟨by omega, by omega,
      .label ⟨by decide, by decide, by decide +kernel, by decide +kernel⟩ (.root (by decide +kernel))⟩⟩⟩

example : NoRepeat [[98], [65]] := by
  intro a w w' b h hw hs
  have hlen : w.length = w'.length := by simpa using congrArg List.length hs
  match w, w', hlen with
  | [], _, _ => exact hw rfl
  | [x], [y], _ =>
    have : a = [] ∧ b = [] := by
      have := congrArg List.length h
      simp at this
      constructor <;> apply List.eq_nil_of_length_eq_zero <;> omega
    obtain ⟨rfl, rfl⟩ := this
    simp at h
    obtain ⟨rfl, rfl⟩ := h
    revert hs; decide
  | x :: x' :: xs, y :: y' :: ys, _ =>
    have := congrArg List.length h
    simp at this
    omega

example : compressName (ofBytes (encName [[98], [65]])) exQ [] 300 0 ⟨0, 100, List.replicate 102 7⟩
      ⟨2, 20, [128, 0] ++ List.replicate 20 0⟩ =
    .ok (5, ⟨4, 100, [1, 98, 0xc0, 12] ++ List.replicate 98 7⟩, ⟨4, 20, [128, 0] ++ List.replicate 20 0⟩) := by
  decide +kernel

end DwStr
end Dw
