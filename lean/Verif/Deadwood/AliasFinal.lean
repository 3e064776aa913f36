import Verif.Deadwood.AliasLemmas
/-!
# The records behind the aliases: lemmas
-/

namespace Dw
namespace Alias
open DwStr Dissect Spec

theorem size_pos (r : Rec) : 11 ≤ r.toRR.size := by
  have : 0 < (encName r.name).length := by simp [encName]
  simp only [RR.size, Rec.toRR]
  omega

theorem take_size (rs : List Rec) (k : Nat) : sizes ((rs.take k).map Rec.toRR) ≤ sizes (rs.map Rec.toRR) := by
  conv => rhs; rw [← List.take_append_drop k rs, List.map_append, sizes_append]
  omega

/-- The record at a place is read. -/
theorem read_at {temp : DwStr} (ht : Usable temp) {r : Rec} (hr : r.Plain) {pre post : List UInt8}
    (hc : temp.contents = pre ++ r.toRR.enc ++ post) :
    temp.getDnEnd pre.length = .ok (pre.length + (encName r.name).length) ∧
    temp.fetchU16 ((pre.length + (encName r.name).length + 8 : Nat) : Int) = .ok r.rdata.length := by
  have hh : Here temp (pre.length, pre.length + (encName r.name).length) r := ⟨hr, rfl, bytesAt_mid hc⟩
  exact ⟨getDnEnd_plain ht hh.nameAt (nameOk_length hr.name), fetchU16_at ht hh.len hr.ok.size⟩

/-- The first `k` records fit, by the test made before each. -/
def Fits (pos first off : Nat) (rs : List Rec) (k : Nat) : Prop :=
  pos + sizes ((rs.take k).map Rec.toRR) + first + 8 + 4 * (off + k) ≤ 1028

theorem finalLoop_eq {temp : DwStr} (ht : Usable temp) {first : Nat} : ∀ (n : Nat) (rs : List Rec) (pre : List UInt8) (w : Walk),
    0 < n → rs ≠ [] → (∀ r ∈ rs, r.Plain) → temp.contents = pre ++ (rs.map Rec.toRR).flatMap RR.enc →
    w.place = pre.length → w.len = temp.len →
    ∃ k, (finalLoop temp 1024 first n w = .ok ⟨pre.length + sizes ((rs.take k).map Rec.toRR),
          pre.length + sizes ((rs.take (k - 1)).map Rec.toRR),
          w.offs ++ offsets (pre.length + first) ((rs.take k).map Rec.toRR), temp.len⟩ ∧
        1 ≤ k ∧ k ≤ rs.length ∧ k ≤ n ∧ (k = rs.length ∨ k = n) ∧ Fits pre.length first w.offs.length rs k) ∨
      (finalLoop temp 1024 first n w = .ok ⟨pre.length + sizes ((rs.take k).map Rec.toRR),
          pre.length + sizes ((rs.take k).map Rec.toRR),
          w.offs ++ offsets (pre.length + first) ((rs.take k).map Rec.toRR), pre.length + sizes ((rs.take k).map Rec.toRR)⟩ ∧
        k < rs.length ∧ k < n ∧ (0 < k → Fits pre.length first w.offs.length rs k) ∧
        ¬ Fits pre.length first w.offs.length rs (k + 1))
  | 0, _, _, _, h, _, _, _, _, _ => absurd h (by omega)
  | n + 1, [], _, _, _, h, _, _, _, _ => absurd rfl h
  | n + 1, r :: rs, pre, w, _, _, hr, hc, hp, hl => by
    have hrr := hr r (by simp)
    have henc := enc_len hrr.ok
    obtain ⟨g1, g2⟩ := read_at ht hrr (pre := pre) (post := (rs.map Rec.toRR).flatMap RR.enc) (by rw [hc]; simp)
    have hsz : r.toRR.size = (encName r.name).length + 10 + r.rdata.length := by simp [RR.size, Rec.toRR]
    have htl : temp.len = pre.length + (r.toRR.size + ((rs.map Rec.toRR).flatMap RR.enc).length) := by
      rw [← ht.clen, hc]; simp [henc]
    have hplace : pre.length + (encName r.name).length + 8 + (r.rdata.length + 2) = pre.length + r.toRR.size := by omega
    have hpos := size_pos r
    have hs1 : sizes (([r].map Rec.toRR)) = r.toRR.size := by simp [sizes]
    unfold finalLoop
    rw [hp, g1]
    simp only [Res.ok_bind, g2]
    rw [hplace, hl]
    by_cases hfit : Fits pre.length first w.offs.length (r :: rs) 1
    · have hfit' := hfit
      unfold Fits at hfit
      rw [show sizes (((r :: rs).take 1).map Rec.toRR) = r.toRR.size by simp [sizes]] at hfit
      rw [if_neg (by omega)]
      by_cases hend : rs = []
      · subst hend
        rw [if_pos (by simp at htl; omega)]
        refine ⟨1, .inl ⟨?_, by omega, by simp, by omega, .inl (by simp), hfit'⟩⟩
        rw [Nat.mod_eq_of_lt (by omega), Nat.mod_eq_of_lt (by omega)]
        simp only [List.take_succ_cons, List.take_zero, List.map_cons, List.map_nil, sizes_cons, offsets, Rec.toRR]
        simp [sizes]; omega
      · have hne : 0 < ((rs.map Rec.toRR).flatMap RR.enc).length := by
          obtain ⟨x, xs, rfl⟩ := List.exists_cons_of_ne_nil hend
          have := size_pos x
          have := enc_len (hr x (by simp)).ok
          simp; omega
        rw [if_neg (by omega)]
        by_cases hn : n = 0
        · subst hn
          refine ⟨1, .inl ⟨?_, by omega, by simp, by omega, .inr rfl, hfit'⟩⟩
          unfold finalLoop
          rw [Nat.mod_eq_of_lt (by omega), Nat.mod_eq_of_lt (by omega)]
          simp only [List.take_succ_cons, List.take_zero, List.map_cons, List.map_nil, sizes_cons, offsets, Rec.toRR]
          simp [sizes]; omega
        · have ih := finalLoop_eq ht (first := first) n rs (pre ++ r.toRR.enc)
            ⟨pre.length + r.toRR.size, pre.length, w.offs ++ [((pre.length + first) % 65536,
              (pre.length + (encName r.name).length + first) % 65536)], temp.len⟩ (by omega) hend
            (fun x hx => hr x (by simp [hx])) (by rw [hc]; simp) (by simp [henc]) rfl
          rw [Nat.mod_eq_of_lt (by omega), Nat.mod_eq_of_lt (by omega)] at ih ⊢
          have hF : ∀ k, Fits (pre ++ r.toRR.enc).length first (w.offs.length + 1) rs k ↔
              Fits pre.length first w.offs.length (r :: rs) (k + 1) := by
            intro k
            unfold Fits
            simp only [List.length_append, henc, List.take_succ_cons, List.map_cons, sizes_cons]
            omega
          have hO : ∀ k, w.offs ++ [(pre.length + first, pre.length + (encName r.name).length + first)] ++
              offsets ((pre ++ r.toRR.enc).length + first) ((rs.take k).map Rec.toRR) =
              w.offs ++ offsets (pre.length + first) (((r :: rs).take (k + 1)).map Rec.toRR) := by
            intro k
            simp only [List.take_succ_cons, List.map_cons, offsets, List.append_assoc, List.singleton_append, List.length_append, henc]
            have e1 : pre.length + (encName r.name).length + first = pre.length + first + r.toRR.name.length := by
              simp [Rec.toRR]; omega
            rw [e1, show pre.length + r.toRR.size + first = pre.length + first + r.toRR.size by omega]
          have hS : ∀ k, (pre ++ r.toRR.enc).length + sizes ((rs.take k).map Rec.toRR) =
              pre.length + sizes (((r :: rs).take (k + 1)).map Rec.toRR) := by
            intro k
            simp only [List.take_succ_cons, List.map_cons, sizes_cons, List.length_append, henc]
            omega
          have hL : (w.offs ++ [(pre.length + first, pre.length + (encName r.name).length + first)]).length =
              w.offs.length + 1 := by simp
          simp only [hL, hF, hO, hS] at ih
          obtain ⟨k, ⟨e, k1, k2, k3, k4, k5⟩ | ⟨e, k2, k3, k4, k5⟩⟩ := ih
          · refine ⟨k + 1, .inl ⟨?_, by omega, by simp; omega, by omega, ?_, k5⟩⟩
            · rw [e]
              obtain ⟨j, rfl⟩ : ∃ j, k = j + 1 := ⟨k - 1, by omega⟩
              rfl
            · rcases k4 with k4 | k4
              · left; simp; omega
              · right; omega
          · refine ⟨k + 1, .inr ⟨e, by simp; omega, by omega, fun _ => ?_, k5⟩⟩
            by_cases h0 : k = 0
            · subst h0; exact hfit'
            · exact k4 (by omega)
    · have hfit' := hfit
      unfold Fits at hfit
      rw [show sizes (((r :: rs).take 1).map Rec.toRR) = r.toRR.size by simp [sizes]] at hfit
      rw [if_pos (by omega), if_pos (by omega)]
      exact ⟨0, .inr ⟨by simp [sizes, offsets], by simp, by omega, fun h => absurd h (by omega), hfit'⟩⟩

/-! ### The table behind the records -/

theorem pushIgn_cases {s : DwStr} (h : Usable s) (hm : s.max = 1024) (v : Nat) :
    ∃ s', pushIgn v s = .ok s' ∧ Usable s' ∧ s'.max = 1024 ∧ min (s.len + 2) 1022 ≤ s'.len ∧
      (s.len + 2 < 1024 → s'.contents = s.contents ++ be16 v) := by
  unfold pushIgn
  by_cases hr : s.len + 2 < 1024
  · obtain ⟨s', h1, h2, h3, h4⟩ := (pushU16_exact v h).2 (by rw [h.clen]; omega)
    rw [h1]
    refine ⟨s', rfl, h2, h3.trans hm, ?_, fun _ => h4⟩
    have := h2.clen
    rw [h4, List.length_append, h.clen] at this
    simp at this; omega
  · rw [(pushU16_exact v h).1 (by rw [h.clen]; omega)]
    exact ⟨s, rfl, h, hm, by omega, fun h' => absurd h' hr⟩

theorem addcharIgn_cases {s : DwStr} (h : Usable s) (hm : s.max = 1024) (b : UInt8) :
    ∃ s', addcharIgn b s = .ok s' ∧ Usable s' ∧ s'.max = 1024 ∧ s.len ≤ s'.len ∧
      (s.len + 1 < 1024 → s'.contents = s.contents ++ [b]) := by
  unfold addcharIgn
  by_cases hr : s.len + 1 < 1024
  · obtain ⟨s', h1, h2, h3, h4⟩ := (addchar_exact b h).2 (by rw [h.clen]; omega)
    rw [h1]
    refine ⟨s', rfl, h2, h3.trans hm, ?_, fun _ => h4⟩
    have := h2.clen
    rw [h4, List.length_append, h.clen] at this
    simp at this; omega
  · rw [(addchar_exact b h).1 (by rw [h.clen]; omega)]
    exact ⟨s, rfl, h, hm, by omega, fun h' => absurd h' hr⟩

theorem len_of {s t : DwStr} (hs : Usable s) (ht : Usable t) {l : List UInt8} (h : t.contents = s.contents ++ l) :
    t.len = s.len + l.length := by rw [← ht.clen, h, List.length_append, hs.clen]

theorem putOffsets_cases : ∀ (cs : List (Nat × Nat)) {s : DwStr}, Usable s → s.max = 1024 →
    ∃ s', putOffsets cs s = .ok s' ∧ Usable s' ∧ s'.max = 1024 ∧ min (s.len + 4 * cs.length) 1022 ≤ s'.len ∧
      (s.len + 4 * cs.length < 1024 → s'.contents = s.contents ++ cs.flatMap Packed.cell)
  | [], s, h, hm => ⟨s, rfl, h, hm, by simp; omega, fun _ => by simp⟩
  | c :: cs, s, h, hm => by
    obtain ⟨a, a1, a2, a3, a4, a5⟩ := pushIgn_cases h hm c.1
    obtain ⟨b, b1, b2, b3, b4, b5⟩ := pushIgn_cases a2 a3 c.2
    obtain ⟨d, d1, d2, d3, d4, d5⟩ := putOffsets_cases cs b2 b3
    refine ⟨d, ?_, d2, d3, by simp; omega, fun hf => ?_⟩
    · unfold putOffsets
      simp only [a1, b1, Res.ok_bind, d1]
    · simp only [List.length_cons] at hf
      have e1 := a5 (by omega)
      have l1 := len_of h a2 e1
      rw [be16_length] at l1
      have e2 := b5 (by omega)
      have l2 := len_of a2 b2 e2
      rw [be16_length] at l2
      rw [d5 (by omega), e2, e1]
      simp [Packed.cell]

/-- What is behind the records. -/
def tableEnd (offs : List (Nat × Nat)) (value : DwStr) : Res DwStr := do
  let value ← putOffsets offs value
  let value ← pushIgn offs.length value
  let value ← pushIgn 0 value
  let value ← pushIgn 0 value
  addcharIgn 0 value

theorem tableEnd_cases (offs : List (Nat × Nat)) {s : DwStr} (h : Usable s) (hm : s.max = 1024) :
    ∃ s', tableEnd offs s = .ok s' ∧ Usable s' ∧ s'.max = 1024 ∧
      (1024 ≤ s.len + 4 * offs.length + 7 → 1020 < s'.len) ∧
      (s.len + 4 * offs.length + 7 < 1024 → s'.contents = s.contents ++ offs.flatMap Packed.cell ++
        be16 offs.length ++ be16 0 ++ be16 0 ++ [0]) := by
  obtain ⟨a, a1, a2, a3, a4, a5⟩ := putOffsets_cases offs h hm
  obtain ⟨b, b1, b2, b3, b4, b5⟩ := pushIgn_cases a2 a3 offs.length
  obtain ⟨c, c1, c2, c3, c4, c5⟩ := pushIgn_cases b2 b3 0
  obtain ⟨d, d1, d2, d3, d4, d5⟩ := pushIgn_cases c2 c3 0
  obtain ⟨e, e1, e2, e3, e4, e5⟩ := addcharIgn_cases d2 d3 0
  refine ⟨e, ?_, e2, e3, fun _ => by omega, fun hf => ?_⟩
  · unfold tableEnd
    simp only [a1, b1, c1, d1, Res.ok_bind, e1]
  · have x1 := a5 (by omega)
    have l1 := len_of h a2 x1
    rw [cells_length] at l1
    have x2 := b5 (by omega)
    have l2 := len_of a2 b2 x2
    rw [be16_length] at l2
    have x3 := c5 (by omega)
    have l3 := len_of b2 c2 x3
    rw [be16_length] at l3
    have x4 := d5 (by omega)
    have l4 := len_of c2 d2 x4
    rw [be16_length] at l4
    rw [e5 (by omega), x4, x3, x2, x1]

theorem cut_usable {t : DwStr} (h : Usable t) {l : Nat} (hl : l ≤ t.len) :
    Usable { t with len := l } ∧ ({ t with len := l } : DwStr).contents = t.contents.take l := by
  refine ⟨⟨h.wf, ?_, h.lim⟩, ?_⟩
  · have := h.lt; simp only; omega
  · unfold DwStr.contents
    simp only
    rw [List.take_take, Nat.min_eq_left hl]

/-- Records, and the table behind them. -/
theorem done_cases {temp value : DwStr} (ht : Usable temp) (hv : Usable value) (hm : value.max = 1024)
    {ls rs : List Rec} (hls : ∀ r ∈ ls, r.Plain) (hrs : ∀ r ∈ rs, r.Plain)
    (htc : temp.contents = (rs.map Rec.toRR).flatMap RR.enc)
    (hvc : value.contents = (ls.map Rec.toRR).flatMap RR.enc) {m : Nat}
    (hroom : value.len + sizes ((rs.take m).map Rec.toRR) < 1024) :
    ∃ v, (do
        let value' ← appendIgn { temp with len := sizes ((rs.take m).map Rec.toRR) } value
        tableEnd (offsets 0 (ls.map Rec.toRR) ++ offsets value.len ((rs.take m).map Rec.toRR)) value' : Res DwStr) = .ok v ∧
      Usable v ∧ (1024 ≤ keptSize (ls ++ rs.take m) → 1020 < v.len) ∧
      (keptSize (ls ++ rs.take m) < 1024 → v.contents = (onlyAnswers (ls ++ rs.take m)).packed.enc ∧
        v.len = keptSize (ls ++ rs.take m)) := by
  have okR : ∀ {l : List Rec}, (∀ r ∈ l, r.Plain) → ∀ r ∈ l.map Rec.toRR, r.Ok := by
    intro l hl r hr
    obtain ⟨x, hx, rfl⟩ := List.mem_map.1 hr
    exact Rec.toRR_ok (hl x hx).ok
  have htake : ∀ r ∈ rs.take m, r.Plain := fun r hr => hrs r (List.mem_of_mem_take hr)
  have htl : temp.len = sizes (rs.map Rec.toRR) := by rw [← ht.clen, htc, encs_length (okR hrs)]
  have hvl : value.len = sizes (ls.map Rec.toRR) := by rw [← hv.clen, hvc, encs_length (okR hls)]
  obtain ⟨c1, c2⟩ := cut_usable ht (l := sizes ((rs.take m).map Rec.toRR)) (by rw [htl]; exact take_size rs m)
  have hcut : ({ temp with len := sizes ((rs.take m).map Rec.toRR) } : DwStr).contents =
      ((rs.take m).map Rec.toRR).flatMap RR.enc := by
    rw [c2, htc]
    have : (rs.map Rec.toRR).flatMap RR.enc = ((rs.take m).map Rec.toRR).flatMap RR.enc ++
        ((rs.drop m).map Rec.toRR).flatMap RR.enc := by
      rw [← List.flatMap_append, ← List.map_append, List.take_append_drop]
    rw [this, ← encs_length (okR htake), List.take_left]
  have hcl : ({ temp with len := sizes ((rs.take m).map Rec.toRR) } : DwStr).contents.length =
      sizes ((rs.take m).map Rec.toRR) := by rw [hcut, encs_length (okR htake)]
  obtain ⟨x, x1, x2, x3, x4⟩ := (append_exact c1 hv).2 (by rw [hcl, hv.clen, hm]; omega)
  have xl := len_of hv x2 x4
  rw [hcl] at xl
  unfold appendIgn
  rw [x1]
  simp only [Res.ok_bind]
  have hoffs : offsets 0 (ls.map Rec.toRR) ++ offsets value.len ((rs.take m).map Rec.toRR) =
      offsets 0 ((ls ++ rs.take m).map Rec.toRR) := by
    rw [List.map_append, DwStr.offsets_append, hvl, Nat.zero_add]
  rw [hoffs]
  have hol : (offsets 0 ((ls ++ rs.take m).map Rec.toRR)).length = (ls ++ rs.take m).length := by
    rw [offsets_length, List.length_map]
  obtain ⟨v, v1, v2, v3, v4, v5⟩ := tableEnd_cases (offsets 0 ((ls ++ rs.take m).map Rec.toRR)) x2 (x3.trans hm)
  rw [hol] at v4 v5
  have hk : keptSize (ls ++ rs.take m) = x.len + 4 * (ls ++ rs.take m).length + 7 := by
    unfold keptSize
    rw [List.map_append, sizes_append, xl, hvl]
  rw [hk]
  refine ⟨v, v1, v2, v4, fun h => ?_⟩
  have e := v5 h
  refine ⟨?_, ?_⟩
  · rw [e, x4, hvc, hcut]
    simp [Packed.enc, onlyAnswers, Answers.packed, Packed.all]
  · rw [← v2.clen, e]
    simp only [List.length_append, cells_length, offsets_length, be16_length, List.length_map, x2.clen, List.length_singleton]
    omega

theorem offsets_dropLast (rs : List RR) : ∀ pos, (offsets pos rs).dropLast = offsets pos rs.dropLast := by
  induction rs with
  | nil => intro _; rfl
  | cons r rs ih =>
    intro pos
    cases rs with
    | nil => rfl
    | cons x xs =>
      have := ih (pos + r.size)
      simp only [offsets, List.dropLast_cons₂] at this ⊢
      rw [this]

/-- Where the answers are. -/
theorem rrExtent_eq {answer : DwStr} {p : Answers} (hr : Reply answer p) (hne : p.an ≠ []) (junk : List UInt8) :
    answer.rrExtent junk = .ok (0, sizes (p.an.map Rec.toRR)) := by
  obtain ⟨d, e, -, -, h1, h2, h3, -⟩ := makeDnsStr_eq hr.usable hr.packed (by rw [packed_all]; simpa using hr.some) hr.contents junk
  unfold rrExtent
  rw [e]
  simp only [Res.ok_bind]
  have hlen : d.an.length = p.an.length := by rw [h1, offsets_length]; simp [Answers.packed]
  rw [if_neg (by rw [hlen]; exact fun h => hne (List.length_eq_zero_iff.1 h))]
  have hs : (d.an.getD 0 (0, 0)).1 = 0 := by
    rw [h1]
    obtain ⟨x, xs, hx⟩ := List.exists_cons_of_ne_nil hne
    simp [Answers.packed, hx, offsets]
  have hl : answer.len = sizes p.packed.all + 4 * p.packed.all.length + 7 := by
    rw [← hr.usable.clen, hr.contents, hr.packed.enc_length]; omega
  have hf : answersEnd answer.len d.an.length d.ns d.ar = (sizes (p.an.map Rec.toRR) : Nat) := by
    rw [hlen, h2, h3]
    cases hns : p.ns with
    | cons x xs => simp [Answers.packed, hns, offsets, answersEnd]
    | nil =>
      cases har : p.ar with
      | cons x xs => simp [Answers.packed, hns, har, offsets, answersEnd, sizes]
      | nil =>
        rw [packed_all] at hl
        simp only [Answers.all, hns, har, List.append_nil, List.length_map] at hl
        simp only [Answers.packed, hns, har, List.map_nil, offsets, answersEnd]
        omega
  rw [hf, hs, if_neg (by omega)]
  simp

theorem finalEnd_eq (temp value : DwStr) (w : Walk) : finalEnd temp value w =
    (let len := if w.place < w.len then w.place else w.len
     let x : Nat × List (Nat × Nat) :=
      if (w.place + value.len : Int) > value.max - 8 - w.offs.length * 4 ∧ w.last < len then (w.last, w.offs.dropLast)
      else (len, w.offs)
     do
      let value' ← appendIgn { temp with len := x.1 } value
      tableEnd x.2 value') := rfl

/-- What becomes of the aliases and the answer. -/
theorem addFinal_eq {answer value : DwStr} {p : Answers} (hr : Reply answer p) (hne : p.an ≠ []) {ls : List Rec}
    (hv : Usable value) (hm : value.max = 1024) (hls : ∀ r ∈ ls, r.Plain) (hn : ls.length < 15)
    (hvc : value.contents = (ls.map Rec.toRR).flatMap RR.enc) (hroom : value.len ≤ 1020) (junk : List UInt8) :
    ∃ v, addFinal answer value (offsets 0 (ls.map Rec.toRR)) junk = .ok v ∧ Usable v ∧
      (1020 < v.len ∨ ∃ m, m ≤ p.an.length ∧ v.contents = (onlyAnswers (ls ++ p.an.take m)).packed.enc ∧
        (m = p.an.length ∨ ls.length + m = 15 ∨ 1023 < keptSize (ls ++ p.an.take (m + 1)))) ∧
      (ls.length + p.an.length ≤ 15 → keptSize (ls ++ p.an) ≤ 1023 →
        v.contents = (onlyAnswers (ls ++ p.an)).packed.enc ∧ v.len = keptSize (ls ++ p.an)) := by
  obtain ⟨temp, t1, t2, t3, t4⟩ := substr_in hr.usable 0 (sizes (p.an.map Rec.toRR)) 1 junk (by
      rw [hr.contents, hr.packed.enc_length, packed_all]
      simp only [Answers.all, List.map_append, sizes_append]; omega) (by
      have := hr.size
      simp only [Answers.all, List.map_append, sizes_append] at this; omega)
  have hpl : ∀ r ∈ p.an, r.Plain := fun r h => hr.recs r (by simp [Answers.all, h])
  have okR : ∀ {l : List Rec}, (∀ r ∈ l, r.Plain) → ∀ r ∈ l.map Rec.toRR, r.Ok := by
    intro l hl r hr
    obtain ⟨x, hx, rfl⟩ := List.mem_map.1 hr
    exact Rec.toRR_ok (hl x hx).ok
  have htc : temp.contents = (p.an.map Rec.toRR).flatMap RR.enc := by
    rw [t4, hr.contents, List.drop_zero]
    have : p.packed.enc = (p.an.map Rec.toRR).flatMap RR.enc ++ (((p.ns ++ p.ar).map Rec.toRR).flatMap RR.enc ++
        (offsets 0 p.packed.all).flatMap Packed.cell ++
        be16 p.packed.an.length ++ be16 p.packed.ns.length ++ be16 p.packed.ar.length ++ [p.packed.kind]) := by
      rw [Packed.enc]; simp [Packed.all, Answers.packed]
    rw [this, ← encs_length (okR hpl), List.take_left]
  have htl : temp.len = sizes (p.an.map Rec.toRR) := by rw [← t2.clen, htc, encs_length (okR hpl)]
  have hvl : value.len = sizes (ls.map Rec.toRR) := by rw [← hv.clen, hvc, encs_length (okR hls)]
  have hol : (offsets 0 (ls.map Rec.toRR)).length = ls.length := by rw [offsets_length, List.length_map]
  have hK : ∀ m, m ≤ p.an.length → keptSize (ls ++ p.an.take m) = value.len + sizes ((p.an.take m).map Rec.toRR) + 4 * (ls.length + m) + 7 := by
    intro m hm
    simp only [keptSize, List.map_append, sizes_append, hvl, List.length_append, List.length_take, Nat.min_eq_left hm]
  have hmono : ∀ m, m < p.an.length → sizes ((p.an.take m).map Rec.toRR) + 11 ≤ sizes ((p.an.take (m + 1)).map Rec.toRR) := by
    intro m hm
    rw [List.take_succ_eq_append_getElem hm, List.map_append, sizes_append]
    have := size_pos p.an[m]
    simp [sizes]; omega
  unfold addFinal
  rw [rrExtent_eq hr hne junk]
  simp only [Res.ok_bind]
  rw [show (1 : Int) = ((1 : Nat) : Int) from rfl, show ((sizes (p.an.map Rec.toRR) : Nat) : Int) - ((0 : Nat) : Int) = (sizes (p.an.map Rec.toRR) : Nat) by omega, t1]
  simp only [Res.ok_bind]
  rw [hm]
  obtain ⟨k, h⟩ := finalLoop_eq t2 (first := value.len) (15 - (offsets 0 (ls.map Rec.toRR)).length) p.an []
    ⟨0, 0, offsets 0 (ls.map Rec.toRR), temp.len⟩ (by rw [hol]; omega) hne hpl (by rw [htc]; simp) rfl rfl
  simp only [List.length_nil, Nat.zero_add, hol, Fits] at h
  rw [hol]
  have hdl : ∀ k, 0 < k → k ≤ p.an.length → (offsets 0 (ls.map Rec.toRR) ++ offsets value.len ((p.an.take k).map Rec.toRR)).dropLast =
      offsets 0 (ls.map Rec.toRR) ++ offsets value.len ((p.an.take (k - 1)).map Rec.toRR) := by
    intro k h0 hk
    have hne' : offsets value.len ((p.an.take k).map Rec.toRR) ≠ [] := by
      obtain ⟨j, rfl⟩ : ∃ j, k = j + 1 := ⟨k - 1, by omega⟩
      obtain ⟨x, xs, hx⟩ := List.exists_cons_of_ne_nil hne
      simp [hx, offsets]
    rw [List.dropLast_append_of_ne_nil hne', offsets_dropLast, ← List.map_dropLast, List.dropLast_eq_take, List.take_take,
      List.length_take, Nat.min_eq_left hk, Nat.min_eq_left (show k - 1 ≤ k by omega)]
  obtain ⟨e, k1, k2, k3, k4, k5⟩ | ⟨e, k2, k3, k4, k5⟩ := h
  · rw [e]
    simp only [Res.ok_bind]
    have hle := take_size p.an k
    have hlast := hmono (k - 1) (by omega)
    rw [show k - 1 + 1 = k by omega] at hlast
    have hkk := hK k k2
    have hol' : (offsets 0 (ls.map Rec.toRR) ++ offsets value.len ((p.an.take k).map Rec.toRR)).length = ls.length + k := by
      rw [List.length_append, hol, offsets_length, List.length_map, List.length_take, Nat.min_eq_left k2]
    rw [finalEnd_eq]
    simp only
    have hlen : (if sizes ((p.an.take k).map Rec.toRR) < temp.len then sizes ((p.an.take k).map Rec.toRR) else temp.len) =
        sizes ((p.an.take k).map Rec.toRR) := by split <;> omega
    rw [hlen, hol', hm]
    by_cases hfit : keptSize (ls ++ p.an.take k) ≤ 1023
    · rw [if_neg (by omega)]
      obtain ⟨v, v1, v2, v3, v4⟩ := done_cases t2 hv hm hls hpl htc hvc (m := k) (by omega)
      obtain ⟨v5, v6⟩ := v4 (by omega)
      refine ⟨v, v1, v2, .inr ⟨k, k2, v5, ?_⟩, fun h1 h2 => ?_⟩
      · rcases k4 with k4 | k4
        · exact .inl k4
        · exact .inr (.inl (by omega))
      · have : k = p.an.length := by omega
        rw [this, List.take_length] at v5 v6
        exact ⟨v5, v6⟩
    · rw [if_pos ⟨by omega, by omega⟩, hdl k (by omega) k2]
      have hkk' := hK (k - 1) (by omega)
      obtain ⟨v, v1, v2, v3, v4⟩ := done_cases t2 hv hm hls hpl htc hvc (m := k - 1) (by omega)
      obtain ⟨v5, v6⟩ := v4 (by omega)
      refine ⟨v, v1, v2, .inr ⟨k - 1, by omega, v5, .inr (.inr ?_)⟩, fun h1 h2 => ?_⟩
      · rw [show k - 1 + 1 = k by omega]; omega
      · exfalso
        have : k = p.an.length := by omega
        rw [this, List.take_length] at hfit
        omega
  · rw [e]
    simp only [Res.ok_bind]
    have hkk := hK k (by omega)
    have hkk' := hK (k + 1) (by omega)
    rw [finalEnd_eq]
    simp only
    rw [if_neg (Nat.lt_irrefl _), if_neg (by omega)]
    have hroom' : value.len + sizes ((p.an.take k).map Rec.toRR) < 1024 := by
      by_cases h0 : k = 0
      · subst h0; simp [sizes]; omega
      · have := k4 (by omega); omega
    obtain ⟨v, v1, v2, v3, v4⟩ := done_cases t2 hv hm hls hpl htc hvc (m := k) hroom'
    refine ⟨v, v1, v2, ?_, fun h1 h2 => ?_⟩
    · by_cases hfit : keptSize (ls ++ p.an.take k) < 1024
      · exact .inr ⟨k, by omega, (v4 hfit).1, .inr (.inr (by omega))⟩
      · exact .inl (v3 (by omega))
    · exfalso
      have h3 := take_size p.an (k + 1)
      have h4 := hK p.an.length (Nat.le_refl _)
      rw [List.take_length] at h4
      omega

end Alias
end Dw
