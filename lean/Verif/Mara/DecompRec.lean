import Verif.Mara.DecompLemmas
/-!
# Decompression: records
-/

namespace Mara
namespace Decomp

open Spec
open Dw (Res)
open Comp (Field fields getLabel fields_known fields_unknown)
open Lookup (ofNat_len len_facts encName_cons_length encName_pos)

theorem ends_le {c : List UInt8} {i e : Nat} {ls : Name} (hn : NameIn (memOf c) i ls) (h : EndsAt (memOf c) i e) : e ≤ c.length := by
  induction hn generalizing e with
  | @root i h0 =>
    have := Comp.endsAt_unique h (.root h0)
    have := memOf_lt h0
    omega
  | @label i l ls hl hn ih =>
    obtain ⟨e', he'⟩ := nameIn_ends hn
    have := Comp.endsAt_unique h (.label hl he')
    subst this
    exact ih he'
  | @pointer i x y ls hx h1 hy hv _ _ =>
    have := Comp.endsAt_unique h (.pointer hx h1)
    have := memOf_lt hy
    omega

theorem bytesAt_append {m : Mem} {i : Nat} {x y : List UInt8} : BytesAt m i (x ++ y) ↔ BytesAt m i x ∧ BytesAt m (i + x.length) y := by
  constructor
  · intro h
    refine ⟨fun j hj => ?_, fun j hj => ?_⟩
    · rw [h j (by simp; omega), List.getElem_append_left hj]
    · have := h (x.length + j) (by simp; omega)
      rw [Nat.add_assoc, this, List.getElem_append_right (by omega)]
      simp
  · rintro ⟨h1, h2⟩ j hj
    by_cases hx : j < x.length
    · rw [h1 j hx, List.getElem_append_left hx]
    · have := h2 (j - x.length) (by simp at hj; omega)
      rw [show i + x.length + (j - x.length) = i + j by omega] at this
      rw [this, List.getElem_append_right (by omega)]

theorem fixed_run {c : List UInt8} {rm rdlen : Nat} {fs : List Field} : ∀ (ns : List Nat) (x out : List UInt8) (off total : Nat),
    (∀ n ∈ ns, 1 ≤ n) → x.length = ns.sum → BytesAt (memOf c) off x → x.length + out.length < rm →
    runFields c rm rdlen (ns.map .fixed ++ fs) out off total = runFields c rm rdlen fs (out ++ x) (off + x.length) (total + x.length)
  | [], x, out, off, total, _, hx, _, _ => by
    have : x = [] := List.length_eq_zero_iff.1 (by simpa using hx)
    subst this
    simp
  | n :: ns, x, out, off, total, hn, hx, hb, hm => by
    rw [List.sum_cons] at hx
    have hn1 := hn n (by simp)
    obtain ⟨a, b, rfl, ha⟩ : ∃ a b, x = a ++ b ∧ a.length = n := ⟨x.take n, x.drop n, by simp, by simp; omega⟩
    rw [List.length_append] at hx hm
    obtain ⟨h1, h2⟩ := bytesAt_append.1 hb
    rw [List.map_cons, List.cons_append, runFields, ← ha, appendBytes_at h1 (by omega) (by omega), Dw.Res.ok_bind]
    rw [fixed_run ns b (out ++ a) (off + a.length) (total + a.length) (fun k hk => hn k (by simp [hk])) (by omega) h2 (by simp; omega)]
    simp [Nat.add_assoc]

theorem fixed_inv {c : List UInt8} {rm rdlen : Nat} {fs : List Field} {r : List UInt8 × Nat} : ∀ (ns : List Nat) (out : List UInt8) (off total : Nat),
    runFields c rm rdlen (ns.map .fixed ++ fs) out off total = .ok r →
    ∃ x, x.length = ns.sum ∧ BytesAt (memOf c) off x ∧ runFields c rm rdlen fs (out ++ x) (off + x.length) (total + x.length) = .ok r ∧
      (ns ≠ [] → off + x.length ≤ c.length)
  | [], out, off, total, h => ⟨[], rfl, fun j hj => absurd hj (by simp), by simpa using h, by simp⟩
  | n :: ns, out, off, total, h => by
    rw [List.map_cons, List.cons_append, runFields] at h
    cases ha : appendBytes c rm out off n with
    | ub => rw [ha] at h; cases h
    | err => rw [ha] at h; cases h
    | ok o =>
      rw [ha, Dw.Res.ok_bind] at h
      obtain ⟨a, h1, h2, rfl, _, h4⟩ := appendBytes_inv ha
      subst h1
      obtain ⟨b, h5, h6, h7, h8⟩ := fixed_inv ns _ _ _ h
      refine ⟨a ++ b, by simp [h5], bytesAt_append.2 ⟨h2, h6⟩, by simpa [Nat.add_assoc] using h7, fun _ => ?_⟩
      cases ns with
      | nil =>
        have : b = [] := List.length_eq_zero_iff.1 (by simpa using h5)
        subst this
        simpa using h4
      | cons k ns => have := h8 (by simp); simp; omega

theorem names_run {c : List UInt8} {rm rdlen : Nat} {fs : List Field} {off k : Nat} {ns : List Name}
    (h : NamesVia (Legible (memOf c)) (memOf c) off ns k) : ∀ (out : List UInt8) (total : Nat), (ns.flatMap encName).length + out.length < rm →
    runFields c rm rdlen (List.replicate ns.length .name ++ fs) out off total =
      runFields c rm rdlen fs (out ++ ns.flatMap encName) k (total + (k - off)) ∧ off ≤ k := by
  induction h with
  | nil => intro out total _; simp
  | @cons i e k ls rest h1 h2 h3 ih =>
    intro out total hm
    rw [List.flatMap_cons, List.length_append] at hm
    have hlt := ends_lt h2
    obtain ⟨g1, g2⟩ := ih (out ++ encName ls) (total + (e - i)) (by rw [List.length_append]; omega)
    refine ⟨?_, by omega⟩
    rw [List.length_cons, List.replicate_succ, List.cons_append, runFields, appendName_legible h1 h2 (by omega), Dw.Res.ok_bind]
    dsimp only
    rw [show i + (e - i) = e by omega, g1, List.flatMap_cons, List.append_assoc]
    congr 1
    omega

theorem names_inv {c : List UInt8} (hc : ¬ Overlong c) {rm rdlen : Nat} {fs : List Field} {r : List UInt8 × Nat} : ∀ (n : Nat) (out : List UInt8) (off total : Nat),
    runFields c rm rdlen (List.replicate n .name ++ fs) out off total = .ok r →
    ∃ ns k, ns.length = n ∧ NamesVia (NameIn (memOf c)) (memOf c) off ns k ∧ off ≤ k ∧ (n ≠ 0 → k ≤ c.length) ∧
      runFields c rm rdlen fs (out ++ ns.flatMap encName) k (total + (k - off)) = .ok r
  | 0, out, off, total, h => ⟨[], off, rfl, .nil, by omega, by simp, by simpa using h⟩
  | n + 1, out, off, total, h => by
    rw [List.replicate_succ, List.cons_append, runFields] at h
    cases ha : appendName c rm out off with
    | ub => rw [ha] at h; cases h
    | err => rw [ha] at h; cases h
    | ok o =>
      obtain ⟨o, len⟩ := o
      rw [ha, Dw.Res.ok_bind] at h
      dsimp only at h
      obtain ⟨ls, e, h1, h2, rfl, rfl, _⟩ := appendName_inv hc ha
      have hlt := ends_lt h2
      have hle := ends_le h1 h2
      rw [show off + (e - off) = e by omega] at h
      obtain ⟨ns, k, g1, g2, g3, g4, g5⟩ := names_inv hc n _ _ _ h
      refine ⟨ls :: ns, k, by simp [g1], .cons h1 h2 g2, by omega, fun _ => ?_, ?_⟩
      · cases n with
        | zero =>
          have : ns = [] := List.length_eq_zero_iff.1 g1
          subst this
          cases g2
          exact hle
        | succ n => exact g4 (by simp)
      · rw [List.flatMap_cons, ← List.append_assoc, show total + (k - off) = total + (e - off) + (k - e) by omega]
        exact g5

/-- A record whose data the message can hold: an address of four bytes, a text that begins with a string. -/
structure Fine (r : Rec) : Prop where
  ok : r.Ok
  a : r.type = 1 → r.tail.length = 4
  txt : r.type = 16 → ∃ n rest, r.tail = n :: rest ∧ n.toNat ≤ rest.length

theorem rddata_run {c : List UInt8} {rm off k : Nat} {r : Rec} (hr : Fine r) (h1 : BytesAt (memOf c) off r.lead)
    (h2 : NamesVia (Legible (memOf c)) (memOf c) (off + r.lead.length) r.names k) (h3 : BytesAt (memOf c) k r.tail)
    (hm : r.rdata.length < rm) : rddata c rm off r.type (k + r.tail.length - off) = .ok r.rdata := by
  have hform := hr.ok.form
  have hrd : r.rdata = r.lead ++ r.names.flatMap encName ++ r.tail := rfl
  rw [hrd, List.length_append, List.length_append] at hm
  have hk := (names_run (rm := rm) (rdlen := 0) (fs := []) h2 r.lead 0 (by omega)).2
  unfold rddata
  cases hl : rdLayout r.type with
  | some x =>
    obtain ⟨l, n, t⟩ := x
    rw [hl] at hform
    simp only [Option.getD_some, Prod.mk.injEq] at hform
    obtain ⟨A, B, cmp, hf, hA, hB, hA1, hB1⟩ := fields_known hl
    rw [hf]
    simp only
    rw [fixed_run A r.lead [] off 0 hA1 (by omega) h1 (by simp; omega), ← hform.2.1,
      (names_run h2 _ _ (by simp only [List.length_append, List.length_nil]; omega)).1]
    have := fixed_run (c := c) (rm := rm) (rdlen := k + r.tail.length - off) (fs := []) B r.tail ([] ++ r.lead ++ r.names.flatMap encName) k
      (0 + r.lead.length + (k - (off + r.lead.length))) hB1 (by omega) h3 (by simp only [List.length_append, List.length_nil]; omega)
    rw [List.append_nil] at this
    rw [this, runFields, Dw.Res.ok_bind]
    simp only
    rw [if_neg (by omega), hrd]
    simp
  | none =>
    rw [hl] at hform
    simp only [Option.getD_none, Prod.mk.injEq] at hform
    have hl0 : r.lead = [] := List.length_eq_zero_iff.1 hform.1
    have hn0 : r.names = [] := List.length_eq_zero_iff.1 hform.2.1
    rw [hl0] at h2
    rw [hn0] at h2
    have hk : k = off := by cases h2; simp
    subst hk
    rw [hl0, hn0] at hrd hm
    simp only [List.flatMap_nil, List.nil_append, List.length_nil] at hrd hm
    rw [hrd, show k + r.tail.length - k = r.tail.length by omega]
    rcases fields_unknown hl with ht | ht | ht
    · have h4 := hr.a ht
      rw [ht]
      simp only [fields]
      have := fixed_run (c := c) (rm := rm) (rdlen := r.tail.length) (fs := []) [4] r.tail [] k 0 (by simp) (by simpa using h4) h3 (by simp; omega)
      simp only [List.map_cons, List.map_nil, List.append_nil] at this
      rw [this, runFields, Dw.Res.ok_bind]
      simp
    · obtain ⟨b, rest, h4, h5⟩ := hr.txt ht
      rw [ht]
      simp only [fields]
      obtain ⟨s, rest', rfl, hs⟩ : ∃ s t, rest = s ++ t ∧ s.length = b.toNat := ⟨rest.take b.toNat, rest.drop b.toNat, by simp, by simp; omega⟩
      have hc0 : c[k]? = some b := by
        have := h3 0 (by rw [h4]; simp)
        simpa [h4, memOf] using this
      have e : r.tail = (b :: s) ++ rest' := by rw [h4]; rfl
      rw [e] at h3 hm ⊢
      obtain ⟨h6, h7⟩ := bytesAt_append.1 h3
      have hsl : (b :: s).length = b.toNat + 1 := by simp [hs]
      rw [List.length_append] at hm
      rw [runFields, hc0]
      simp only
      rw [← hsl, appendBytes_at h6 (by simp) (by simp at hm ⊢; omega), Dw.Res.ok_bind, runFields]
      by_cases hr0 : rest' = []
      · subst hr0
        rw [if_pos (by simp), Dw.Res.ok_bind]
        simp
      · have hpos : 1 ≤ rest'.length := List.length_pos_iff.2 hr0
        rw [if_neg (by simp; omega)]
        rw [show (b :: s ++ rest').length - (0 + (b :: s).length) = rest'.length by simp,
          appendBytes_at h7 hpos (by simp at hm ⊢; omega), Dw.Res.ok_bind, Dw.Res.ok_bind]
        simp
    · rw [ht]
      simp only
      by_cases h0 : r.tail.length = 0
      · rw [if_pos h0, List.length_eq_zero_iff.1 h0]
      · rw [if_neg h0, appendBytes_at h3 (by omega) (by simp; omega)]
        rfl

theorem rddata_inv {c : List UInt8} (hc : ¬ Overlong c) {rm off type rdlen : Nat} {d : List UInt8}
    (hoff : off ≤ c.length) (h : rddata c rm off type rdlen = .ok d) :
    ∃ lead names tail k, BytesAt (memOf c) off lead ∧ NamesVia (NameIn (memOf c)) (memOf c) (off + lead.length) names k ∧
      BytesAt (memOf c) k tail ∧ off + rdlen = k + tail.length ∧ d = lead ++ names.flatMap encName ++ tail ∧ k + tail.length ≤ c.length ∧
      (lead.length, names.length, tail.length) = (rdLayout type).getD (0, 0, tail.length) ∧
      (type = 1 → tail.length = 4) ∧ (type = 16 → ∃ n rest, tail = n :: rest ∧ n.toNat ≤ rest.length) := by
  unfold rddata at h
  cases hl : rdLayout type with
  | some x =>
    obtain ⟨l, n, t⟩ := x
    obtain ⟨A, B, cmp, hf, hA, hB, hA1, hB1⟩ := fields_known hl
    rw [hf] at h
    simp only at h
    cases hrun : runFields c rm rdlen (A.map .fixed ++ (List.replicate n .name ++ B.map .fixed)) [] off 0 with
    | ub => rw [hrun] at h; cases h
    | err => rw [hrun] at h; cases h
    | ok r =>
      obtain ⟨o, total⟩ := r
      rw [hrun, Dw.Res.ok_bind] at h
      simp only at h
      split at h
      · cases h
      · rename_i ht
        cases h
        obtain ⟨lead, g1, g2, g3, g4⟩ := fixed_inv A [] off 0 hrun
        obtain ⟨ns, k, f1, f2, f3, f4, f5⟩ := names_inv hc n _ _ _ g3
        rw [← List.append_nil (B.map Field.fixed)] at f5
        obtain ⟨tail, e1, e2, e3, e4⟩ := fixed_inv B _ _ _ f5
        rw [runFields] at e3
        cases e3
        refine ⟨lead, ns, tail, k, g2, f2, e2, by omega, by simp, ?_, ?_, ?_, ?_⟩
        · by_cases hB0 : B = []
          · subst hB0
            have : tail.length = 0 := by simpa using e1
            by_cases hn0 : n = 0
            · subst hn0
              have hns := List.length_eq_zero_iff.1 f1
              subst hns
              cases f2
              by_cases hA0 : A = []
              · subst hA0
                have : lead.length = 0 := by simpa using g1
                omega
              · have := g4 hA0
                omega
            · have := f4 hn0
              omega
          · exact e4 hB0
        · simp only [Option.getD_some, Prod.mk.injEq]
          exact ⟨by omega, f1, by omega⟩
        · intro ht1; rw [ht1] at hl; cases hl
        · intro ht1; rw [ht1] at hl; cases hl
  | none =>
    rcases fields_unknown hl with ht | ht | ht
    · subst ht
      simp only [fields] at h
      cases hrun : runFields c rm rdlen [.fixed 4] [] off 0 with
      | ub => rw [hrun] at h; cases h
      | err => rw [hrun] at h; cases h
      | ok r =>
        obtain ⟨o, total⟩ := r
        rw [hrun, Dw.Res.ok_bind] at h
        simp only at h
        split at h
        · cases h
        · rename_i ht
          cases h
          obtain ⟨tail, e1, e2, e3, e4⟩ := fixed_inv (fs := []) [4] [] off 0 hrun
          rw [runFields] at e3
          cases e3
          refine ⟨[], [], tail, off, fun j hj => absurd hj (by simp), by simpa using NamesVia.nil, e2, by omega, by simp, e4 (by simp), by simp, ?_, by simp⟩
          intro _
          simpa using e1
    · subst ht
      simp only [fields] at h
      cases hrun : runFields c rm rdlen [.text, .rest] [] off 0 with
      | ub => rw [hrun] at h; cases h
      | err => rw [hrun] at h; cases h
      | ok r =>
        obtain ⟨o, total⟩ := r
        rw [hrun, Dw.Res.ok_bind] at h
        simp only at h
        split at h
        · cases h
        · rename_i ht
          cases h
          rw [runFields] at hrun
          cases hb : c[off]? with
          | none =>
            rw [hb] at hrun
            simp only at hrun
            split at hrun <;> cases hrun
          | some b =>
            rw [hb] at hrun
            simp only at hrun
            cases ha : appendBytes c rm [] off (b.toNat + 1) with
            | ub => rw [ha] at hrun; cases hrun
            | err => rw [ha] at hrun; cases hrun
            | ok o1 =>
              obtain ⟨x, h1, h2, ho1, _, h4⟩ := appendBytes_inv ha
              rw [List.nil_append] at ho1
              subst ho1
              rw [ha, Dw.Res.ok_bind, runFields] at hrun
              have hx : ∃ s, o1 = b :: s ∧ s.length = b.toNat := by
                cases o1 with
                | nil => simp at h1
                | cons y s =>
                  have := h2 0 (by simp)
                  have e : c[off]? = some y := by simpa [memOf] using this
                  rw [hb] at e
                  cases e
                  exact ⟨s, rfl, by simpa using h1⟩
              obtain ⟨s, rfl, hs⟩ := hx
              split at hrun
              · cases hrun
                refine ⟨[], [], b :: s, off, fun j hj => absurd hj (by simp), by simpa using NamesVia.nil, h2, by simp; omega, by simp, by simp; omega, by simp, by simp, ?_⟩
                exact fun _ => ⟨b, s, rfl, by omega⟩
              · cases ha2 : appendBytes c rm (b :: s) (off + (b.toNat + 1)) (rdlen - (0 + (b.toNat + 1))) with
                | ub => rw [ha2] at hrun; cases hrun
                | err => rw [ha2] at hrun; cases hrun
                | ok o2 =>
                  rw [ha2, Dw.Res.ok_bind] at hrun
                  cases hrun
                  obtain ⟨y, f1, f2, rfl, _, f4⟩ := appendBytes_inv ha2
                  refine ⟨[], [], b :: s ++ y, off, fun j hj => absurd hj (by simp), by simpa using NamesVia.nil, ?_, by simp; omega, by simp, by simp; omega, by simp, by simp, ?_⟩
                  · rw [bytesAt_append]
                    refine ⟨h2, ?_⟩
                    simpa [hs] using f2
                  · exact fun _ => ⟨b, s ++ y, by simp, by simp; omega⟩
    · rw [ht] at h
      simp only at h
      have h1 : type ≠ 1 := by intro e; subst e; cases ht
      have h16 : type ≠ 16 := by intro e; subst e; cases ht
      split at h
      · cases h
        refine ⟨[], [], [], off, fun j hj => absurd hj (by simp), by simpa using NamesVia.nil, fun j hj => absurd hj (by simp), by simp; omega, by simp,
          by simpa using hoff, by simp, fun e => absurd e h1, fun e => absurd e h16⟩
      · obtain ⟨x, f1, f2, hx, _, f4⟩ := appendBytes_inv h
        rw [List.nil_append] at hx
        subst hx
        refine ⟨[], [], _, off, fun j hj => absurd hj (by simp), by simpa using NamesVia.nil, f2, by omega, by simp, by omega, by simp, fun e => absurd e h1, fun e => absurd e h16⟩

end Decomp
end Mara
