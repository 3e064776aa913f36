import Verif.Deadwood.AliasFinal
import Verif.Deadwood.DissectProps
/-!
# The answer for a name that is an alias: from the aliases and the answer, lemmas
-/

namespace Dw
namespace Alias
open DwStr Dissect Spec

/-- The aliases `as` are kept for the name `qs`, and the answer `p` for the name they lead to. -/
structure Kept (query action answer : DwStr) (qs : List (List UInt8)) (qtype : Nat) (as : List Rec) (p : Answers) : Prop where
  asks : Asks query qs qtype
  name : Readable qs
  usable : Usable action
  aliases : action.contents = aliases as
  some : as ≠ []
  names : ∀ r ∈ as, Readable r.target
  short : (as.flatMap aliasEntry).length ≤ 253
  reply : Reply answer p

theorem entries (as : List Rec) : as.flatMap aliasEntry = (as.map Rec.target).flatMap entry := by
  rw [List.flatMap_map]; rfl

theorem aliasRec_plain {ttl : Nat} (ht : ttl < 4294967296) {a b : List (List UInt8)} (ha : Readable a) (hb : Readable b) :
    (aliasRec ttl a b).Plain := by
  refine ⟨⟨by simp [aliasRec], rfl, ht, ?_, rfl⟩, ha.1, fun n hn => ?_⟩
  · have := hb.1.2
    simp [aliasRec, Rec.rdata]; omega
  · simp only [aliasRec, List.mem_singleton] at hn
    rw [hn]; exact hb.1

theorem links_plain {ttl : Nat} (ht : ttl < 4294967296) : ∀ (bs : List (List (List UInt8))) (a : List (List UInt8)),
    (∀ x ∈ a :: bs, Readable x) → ∀ r ∈ links ttl a bs, r.Plain
  | [], _, _, _, h => by simp [links] at h
  | b :: bs, a, hr, r, h => by
    simp only [links, List.mem_cons] at h
    rcases h with rfl | h
    · exact aliasRec_plain ht (hr a (by simp)) (hr b (by simp))
    · exact links_plain ht bs b (fun x hx => hr x (by simp [hx])) r h

theorem links_length (ttl : Nat) : ∀ (bs : List (List (List UInt8))) (a : List (List UInt8)), (links ttl a bs).length = bs.length
  | [], _ => rfl
  | b :: bs, a => by simp [links, links_length ttl bs b]

/-- Where the last alias is, and what kind of string it is. -/
theorem Kept.ends {query action answer : DwStr} {qs : List (List UInt8)} {qtype : Nat} {as : List Rec} {p : Answers}
    (h : Kept query action answer qs qtype as p) :
    action.fetchU16 (-2) = .ok (((as.map Rec.target).dropLast.flatMap entry).length) ∧ action.fetchU8 (-1) = .ok 17 := by
  obtain ⟨cs, r, rfl⟩ : ∃ cs r, as = cs ++ [r] := ⟨_, _, (List.dropLast_append_getLast h.some).symm⟩
  have h17 : action.contents = ((cs ++ [r]).flatMap aliasEntry ++
      be16 ((place 0 ((cs ++ [r]).map aliasEntry)).getLastD 0)) ++ [17] := h.aliases
  have hfin : (place 0 ((cs ++ [r]).map aliasEntry)).getLastD 0 = (cs.flatMap aliasEntry).length := by
    rw [List.map_append, List.map_singleton, place_last]
    simp [List.flatMap]
  rw [hfin] at h17
  refine ⟨?_, fetch_last h.usable h17⟩
  have hlen : action.contents.length = ((cs ++ [r]).flatMap aliasEntry).length + 3 := by
    rw [h17]; simp [be16_length]; omega
  have hat : BytesAt action.mem ((cs ++ [r]).flatMap aliasEntry).length (be16 (cs.flatMap aliasEntry).length) :=
    bytesAt_mid (post := [17]) h17
  have hsub : (cs.flatMap aliasEntry).length < 65536 := by
    have : ((cs ++ [r]).flatMap aliasEntry).length = (cs.flatMap aliasEntry).length + (aliasEntry r).length := by simp
    have := h.short
    omega
  have hf := fetchU16_at h.usable hat hsub
  have hin := fetchU16_in h.usable ((cs ++ [r]).flatMap aliasEntry).length (by omega)
  rw [List.map_append, List.map_singleton, List.dropLast_concat, ← entries, ← hf, hin.1, ← hin.2]
  congr 1
  omega

/-- The aliases that are told: the first twelve. -/
def told (ttl : Int) (qs : List (List UInt8)) (as : List Rec) : List Rec := links ttl.toNat qs ((as.map Rec.target).take 12)

/-- What is made: nothing if there is no room for the aliases, otherwise what there is room for, and if that is a little
too much, nothing, with the memory of the last alias given back twice. -/
theorem created {query action answer : DwStr} {qs : List (List UInt8)} {qtype : Nat} {as : List Rec} {p : Answers}
    (h : Kept query action answer qs qtype as p) (hk : p.kind = 0) (hne : p.an ≠ []) {ttl : Int} (h0 : 0 ≤ ttl)
    (h9 : ttl < 4294967296) (junk : List UInt8) :
    (sizes ((told ttl qs as).map Rec.toRR) ≤ 1020 → ∃ v, Usable v ∧
      (1020 < v.len ∨ ∃ m, m ≤ p.an.length ∧ v.contents = (onlyAnswers (told ttl qs as ++ p.an.take m)).packed.enc ∧
        (m = p.an.length ∨ (told ttl qs as).length + m = 15 ∨ 1023 < keptSize (told ttl qs as ++ p.an.take (m + 1)))) ∧
      ((told ttl qs as).length + p.an.length ≤ 15 → keptSize (told ttl qs as ++ p.an) ≤ 1023 →
        v.contents = (onlyAnswers (told ttl qs as ++ p.an)).packed.enc ∧ v.len = keptSize (told ttl qs as ++ p.an)) ∧
      createReply query action answer ttl junk =
        if v.len > 1020 then (if 2 ≤ as.length then .ub else .err) else .ok v) ∧
    (1020 < sizes ((told ttl qs as).map Rec.toRR) → createReply query action answer ttl junk = .err) := by
  obtain ⟨e1, e2⟩ := h.ends
  have hkind : answer.fetchU8 (-1) = .ok 0 := by
    refine fetch_last h.reply.usable (k := 0) (x := p.packed.all.flatMap RR.enc ++ (offsets 0 p.packed.all).flatMap Packed.cell ++
      be16 p.packed.an.length ++ be16 p.packed.ns.length ++ be16 p.packed.ar.length) ?_
    rw [h.reply.contents, Packed.enc, show p.packed.kind = 0 from hk]
  have hents := entries as
  have hshort := h.short
  obtain ⟨t, ts, hts⟩ : ∃ t ts, as.map Rec.target = t :: ts := by
    obtain ⟨x, xs, hx⟩ := List.exists_cons_of_ne_nil h.some
    exact ⟨_, _, by rw [hx]; rfl⟩
  have hread : ∀ x ∈ t :: ts, Readable x := by
    intro x hx
    rw [← hts] at hx
    obtain ⟨r, hr, rfl⟩ := List.mem_map.1 hx
    exact h.names r hr
  rw [hents, hts] at hshort
  have hac : action.contents = [] ++ (t :: ts).flatMap entry ++
      (be16 ((place 0 (as.map aliasEntry)).getLastD 0) ++ [17]) := by
    rw [h.aliases, Spec.aliases, hents, hts]; simp
  have hrt := hread t (by simp)
  have hn := h.name.1.2
  have htl : (encName t).length + 2 ≤ 253 := by
    rw [List.flatMap_cons, List.length_append, entry_length] at hshort
    omega
  obtain ⟨ra, d1⟩ := buf_drop h.asks.usable (pre := []) (l := encName qs) (post := be16 qtype) (by rw [h.asks.contents]; simp)
  obtain ⟨rb, d2⟩ := buf_drop h.usable (pre := be16 (encName t).length) (l := encName t)
    (post := ts.flatMap entry ++ (be16 ((place 0 (as.map aliasEntry)).getLastD 0) ++ [17])) (by rw [hac]; simp [entry])
  rw [be16_length] at d2
  obtain ⟨o, o1, o2, o3, o4⟩ := oneCname_eq (question := query) (answer := action) (qo := 0) (ao := 2) (size := 1024)
    h.name hrt d1 d2 (by omega) (by omega) (by omega) h0 h9 (by simp; omega) junk
  have ol : o.len = (encName qs).length + 10 + (encName t).length := by rw [← o2.clen, o4, aliasRec_enc]
  have htold : told ttl qs as = aliasRec ttl.toNat qs t :: links ttl.toNat t (ts.take 11) := by
    unfold told
    rw [hts]; rfl
  have hsz : sizes ((told ttl qs as).map Rec.toRR) = o.len + sizes ((links ttl.toNat t (ts.take 11)).map Rec.toRR) := by
    rw [htold, List.map_cons, sizes_cons, aliasRec_size, ol]
  have hlink := linkLoop_eq h.usable h0 h9 ((t :: ts).dropLast.flatMap entry).length junk ts t []
    (be16 ((place 0 (as.map aliasEntry)).getLastD 0) ++ [17]) 11
    ⟨o, [(0, (encName qs).length % 65536)], false⟩ hac hread (by simpa using hshort) (by simp) o2 o3 (by rw [ol]; omega)
  simp only [List.length_nil] at hlink
  have hstep : createReply query action answer ttl junk = (do
      let w ← linkLoop action ttl ((t :: ts).dropLast.flatMap entry).length junk 11 0
        ⟨o, [(0, (encName qs).length % 65536)], false⟩
      let value ← addFinal answer w.value w.offs junk
      if value.len > 1020 then w.giveUp else .ok value) := by
    unfold createReply
    rw [e1, e2, hkind, hts]
    simp only [Res.ok_bind, ne_eq, not_true_eq_false, if_false]
    rw [if_neg (by simp), o1]
    simp only [Res.ok_bind]
    rw [if_neg (by rw [ol]; omega)]
  rw [hstep]
  refine ⟨fun hs => ?_, fun hs => by rw [hlink.2 (by omega)]; rfl⟩
  obtain ⟨v, v1, v2, v3, v4⟩ := hlink.1 (by omega)
  rw [v1]
  simp only [Res.ok_bind]
  have hplain : ∀ r ∈ told ttl qs as, r.Plain := by
    refine links_plain (by omega) _ _ fun x hx => ?_
    simp only [List.mem_cons] at hx
    rcases hx with rfl | hx
    · exact h.name
    · exact hread x (by rw [← hts]; exact List.mem_of_mem_take hx)
  have hlen : (told ttl qs as).length ≤ 12 := by unfold told; rw [links_length]; simp
  have hvc : v.contents = ((told ttl qs as).map Rec.toRR).flatMap RR.enc := by
    rw [v4, o4, htold]; simp
  have hvl : v.len = sizes ((told ttl qs as).map Rec.toRR) := by
    rw [← v2.clen, v4, List.length_append, o2.clen, encs_length, hsz]
    intro r hr
    obtain ⟨x, hx, rfl⟩ := List.mem_map.1 hr
    exact Rec.toRR_ok (hplain x (by rw [htold]; simp [hx])).ok
  have hoff : [(0, (encName qs).length % 65536)] ++ offsets o.len ((links ttl.toNat t (ts.take 11)).map Rec.toRR) =
      offsets 0 ((told ttl qs as).map Rec.toRR) := by
    rw [htold, Nat.mod_eq_of_lt (by omega)]
    simp only [List.map_cons, offsets, aliasRec_size, Nat.zero_add, ← ol]
    simp [aliasRec, Rec.toRR]
  rw [hoff]
  obtain ⟨u, u1, u2, u3, u4⟩ := addFinal_eq h.reply hne v2 v3 hplain (by omega) hvc (by omega) junk
  refine ⟨u, u2, u3, u4, ?_⟩
  rw [u1]
  simp only [Res.ok_bind]
  by_cases hu : u.len > 1020
  · rw [if_pos hu, if_pos hu]
    unfold Work.giveUp
    simp only [Bool.false_or]
    have hal : as.length = ts.length + 1 := by
      have := congrArg List.length hts
      simpa using this
    cases ts with
    | nil => rw [if_neg (by simp), if_neg (by simp at hal; omega)]
    | cons x xs => rw [if_pos (by simp), if_pos (by simp at hal; omega)]
  · rw [if_neg hu, if_neg hu]

end Alias
end Dw
