import Verif.Deadwood.GlueLemmas
import Verif.Deadwood.ReplyLemmas
/-!
# Properties: the address of a server that is known by its name only
-/

namespace Dw
namespace Trust
open DwStr Spec

theorem sizes_count : ∀ rs : List RR, 10 * rs.length ≤ sizes rs
  | [] => by simp [sizes]
  | r :: rs => by
    have := sizes_count rs
    simp only [sizes, List.map_cons, List.sum_cons, List.length_cons, RR.size] at *
    omega

theorem offsets_length : ∀ (rs : List RR) (n : Nat), (offsets n rs).length = rs.length
  | [], _ => rfl
  | r :: rs, n => by rw [offsets, List.length_cons, offsets_length rs, List.length_cons]

theorem cells_length : ∀ L : List (Nat × Nat), (L.flatMap Packed.cell).length = 4 * L.length
  | [] => rfl
  | c :: L => by rw [List.flatMap_cons, List.length_append, cells_length L]; simp [Packed.cell, be16]; omega

theorem recs_length : ∀ rs : List RR, (∀ r ∈ rs, r.Ok) → (rs.flatMap RR.enc).length = sizes rs
  | [], _ => rfl
  | r :: rs, h => by
    rw [List.flatMap_cons, List.length_append, recs_length rs fun q hq => h q (by simp [hq]), RR.enc_length (h r (by simp))]
    rfl

theorem enc_small {p : Packed} (hp : p.Ok) : p.enc.length < 134217727 := by
  have h1 := sizes_count p.all
  have h2 := hp.size
  simp only [Packed.enc, List.length_append, recs_length _ hp.recs, cells_length, offsets_length]
  simp [be16]; omega

theorem cut_last {s : DwStr} (h : Usable s) {pre : List UInt8} {k : UInt8} (hc : s.contents = pre ++ [k]) :
    s.fetchU8 (-1) = .ok k.toNat ∧ Usable { s with len := s.len - 1 } ∧ ({ s with len := s.len - 1 } : DwStr).contents = pre := by
  constructor
  · have hl : s.contents.length = pre.length + 1 := by rw [hc]; simp
    have := (fetchU8_in h pre.length (by omega)).2
    rw [show (pre.length : Int) - (s.contents.length : Int) = -1 by omega] at this
    rw [this]
    simp [hc]
  · obtain ⟨s', e, hu, -, hc'⟩ := (popU8_exact h).2 pre _ hc
    have : s' = { s with len := s.len - 1 } := by
      unfold popU8 at e
      split at e
      · cases e
      split at e
      · cases e
      cases h1 : s.peek (s.len - 1) with
      | ok a => rw [h1] at e; exact (Prod.mk.inj (Res.ok.inj e)).2.symm
      | err => rw [h1] at e; cases e
      | ub => rw [h1] at e; cases e
    rw [← this]
    exact ⟨hu, hc'⟩

theorem peek_in {a : DwStr} {pre post : List UInt8} {x : UInt8} (hc : a.contents = pre ++ x :: post) :
    rawPeek a.buf pre.length = .ok x := by
  have hl : pre.length < a.contents.length := by rw [hc]; simp
  have e : a.contents[pre.length] = x := by simp [hc]
  unfold contents at hl e
  rw [List.length_take] at hl
  rw [rawPeek_ok (by omega)]
  rw [List.getElem_take] at e
  rw [e]

/-- C115.  The address found in a cached answer is, byte for byte, the data of an A record of it, and which one is exactly as
`Packed.pick` says; answers that say that there is nothing have none. -/
theorem fromAnswer_exact {p : Packed} (hp : p.Ok) (hA : ∀ r ∈ p.addresses, r.type = 1 → 4 ≤ r.rdata.length) (rnd : Nat) :
    fromAnswer (Remote.dstr p.enc) rnd = .ok (if p.kind = 0 then p.pick rnd else none) := by
  have hu := Remote.dstr_usable (enc_small hp)
  have hcon := Remote.dstr_contents p.enc
  have hall := sizes_count p.all
  have hsz := hp.size
  have hlen : p.an.length + p.ns.length + p.ar.length = p.all.length := by simp [Packed.all]; omega
  obtain ⟨k0, k1, k2⟩ := cut_last hu (k := p.kind) (pre := p.all.flatMap RR.enc ++ (offsets 0 p.all).flatMap Packed.cell ++
      be16 p.an.length ++ be16 p.ns.length ++ be16 p.ar.length) (by rw [hcon]; rfl)
  unfold fromAnswer
  rw [k0]
  dsimp only
  by_cases hk : p.kind = 0
  swap
  · rw [if_neg hk, if_pos]
    intro h
    exact hk (UInt8.toNat_inj.1 h)
  rw [if_pos hk, if_neg (by rw [hk]; decide)]
  obtain ⟨a1, p1, u1, b1, c1⟩ := pop_be16 k1 (by omega) k2
  obtain ⟨a2, p2, u2, b2, c2⟩ := pop_be16 u1 (by omega) c1
  obtain ⟨a3, p3, u3, b3, c3⟩ := pop_be16 u2 (by omega) c2
  simp only [p1, p2, p3, bind, Res.bind]
  have hzip := sits_offsets (S := p.all.flatMap RR.enc) p.all [] [] (by simp) hp.recs (by simpa using hsz)
  have hz0 : ((offsets 0 p.all).zip p.all).map Prod.fst = offsets 0 p.all := List.map_fst_zip (by rw [offsets_length]; omega)
  have hz1 : ((offsets 0 p.all).zip p.all).map Prod.snd = p.all := List.map_snd_zip (by rw [offsets_length]; omega)
  generalize hL : (offsets 0 p.all).zip p.all = L at hz0 hz1
  rw [List.length_nil, hL] at hzip
  have hLl : L.length = p.all.length := by rw [← hz1, List.length_map]
  obtain ⟨a4, post, l1, l2, l3, l4⟩ := addrLoop_eq (p.all.flatMap RR.enc) (min p.an.length 16) L a3 [] u3 hzip
    (by rw [hz0]; exact c3) (by omega)
  rw [l1]
  dsimp only
  generalize hX : (L.reverse.take (min p.an.length 16)).filter (fun x => x.2.address) = X
  have hXa : X.map Prod.snd = p.addresses := by
    rw [← hX, Packed.addresses, ← hz1, ← List.map_reverse, ← List.map_take, List.filter_map]
    rfl
  rw [Packed.pick, ← hXa, List.length_map, List.getElem?_map, List.nil_append, List.length_map, List.getElem?_map]
  cases hg : X[rnd % X.length]? with
  | none => simp
  | some x =>
    have hmem : x ∈ X := List.mem_of_getElem? hg
    have hxL : x ∈ L := by
      rw [← hX] at hmem
      exact List.mem_reverse.1 (List.mem_of_mem_take (List.mem_filter.1 hmem).1)
    have hs := hzip x hxL
    simp only [Option.map_some]
    rw [hs.type l2 l4]
    by_cases h1 : x.2.type = 1
    · have hd := hA x.2 (by rw [← hXa]; exact List.mem_map_of_mem hmem) h1
      obtain ⟨pre, post', e1, e2, -, e4⟩ := hs
      obtain ⟨d0, d1, d2, d3, rest, hr⟩ : ∃ d0 d1 d2 d3 rest, x.2.rdata = d0 :: d1 :: d2 :: d3 :: rest := by
        match h : x.2.rdata with
        | [] | [_] | [_, _] | [_, _, _] => rw [h] at hd; simp at hd
        | d0 :: d1 :: d2 :: d3 :: rest => exact ⟨_, _, _, _, _, rfl⟩
      have hz : x.1.2 + 10 = (pre ++ x.2.name ++ be16 x.2.type ++ x.2.cls ++ be32 x.2.ttl ++ x.2.rdlen).length := by
        rw [e2]; simp [be32, be16, e4.cls, e4.rdlen]; omega
      have hc : a4.contents = (pre ++ x.2.name ++ be16 x.2.type ++ x.2.cls ++ be32 x.2.ttl ++ x.2.rdlen) ++
          (d0 :: d1 :: d2 :: d3 :: (rest ++ post' ++ post)) := by
        rw [l4, e1, RR.enc, hr]; simp
      rw [h1]
      generalize (pre ++ x.2.name ++ be16 x.2.type ++ x.2.cls ++ be32 x.2.ttl ++ x.2.rdlen) = W at hz hc
      have q0 := peek_in hc
      have q1 := peek_in (a := a4) (pre := W ++ [d0]) (x := d1) (by rw [hc]; simp; rfl)
      have q2 := peek_in (a := a4) (pre := W ++ [d0, d1]) (x := d2) (by rw [hc]; simp; rfl)
      have q3 := peek_in (a := a4) (pre := W ++ [d0, d1, d2]) (x := d3) (by rw [hc]; simp; rfl)
      simp only [List.length_append, List.length_cons, List.length_nil, ← hz] at q0 q1 q2 q3
      simp only [Nat.add_assoc, Nat.reduceAdd] at q0 q1 q2 q3
      simp [q0, q1, q2, q3, hr]
    · rw [if_neg h1]
      split
      · rename_i he; exact absurd (Res.ok.inj he) h1
      · rename_i he; cases he
      · rfl

end Trust
end Dw
