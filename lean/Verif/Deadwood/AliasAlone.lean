import Verif.Deadwood.AliasProps
/-!
# C107: the alias alone

If what is kept for the name at the end is not an answer although it has answer records, only the first alias is told.
-/

namespace Dw
namespace Alias
open DwStr Dissect Spec

theorem addcharIgn_fits {s : DwStr} (h : Usable s) (b : UInt8) (hf : s.contents.length + 1 < s.max) :
    ∃ s', addcharIgn b s = .ok s' ∧ Usable s' ∧ s'.contents = s.contents ++ [b] := by
  obtain ⟨s', h1, h2, -, h4⟩ := (addchar_exact b h).2 hf
  exact ⟨s', by unfold addcharIgn; rw [h1], h2, h4⟩

theorem pushIgn_fits {s : DwStr} (v : Nat) (h : Usable s) (hf : s.contents.length + 2 < s.max) :
    ∃ s', pushIgn v s = .ok s' ∧ Usable s' ∧ s'.max = s.max ∧ s'.contents = s.contents ++ be16 v := by
  obtain ⟨s', e, h1, h2, h3⟩ := (pushU16_exact v h).2 hf
  exact ⟨s', by unfold pushIgn; rw [e], h1, h2, by rw [h3]; simp [be16]⟩

/-- C107.  What is kept for the name at the end of the aliases says that there is no such name or record, and has answers
all the same: the answer is the first alias, if it takes less than 260 bytes. -/
theorem alias_alone (cfg : Times) (h30 : 30 ≤ cfg.max) (hmax : cfg.max < 4294967296)
    {query action answer : DwStr} {qs : List (List UInt8)} {qtype : Nat} {r : Rec} {as : List Rec} {p : Answers}
    (h : Kept query action answer qs qtype (r :: as) p) (hk : p.kind ≠ 0)
    {cs : List Rec} {x : Rec} {rest : List Rec} (han : p.an = cs ++ x :: rest) (h5 : ∀ r ∈ cs, r.type = 5) (hx : x.type ≠ 5)
    (ht : ∀ r ∈ cs ++ [x], r.ttl < 2147483648)
    (hsize : keptSize [aliasRec 0 qs r.target] < 260) (most : Int) (junk : List UInt8) :
    makeReply cfg query action answer most junk = .ok ⟨encName qs ++ be16 qtype,
      (onlyAnswers [aliasRec (lifetime cfg most (cs.map Rec.ttl ++ [x.ttl])).toNat qs r.target]).packed.enc,
      lifetime cfg most (cs.map Rec.ttl ++ [x.ttl])⟩ := by
  have hne : p.an ≠ [] := by rw [han]; simp
  have hpos := List.length_pos_iff.2 hne
  obtain ⟨t0, t9⟩ := lifetime_range cfg h30 hmax most (cs.map Rec.ttl ++ [x.ttl])
  obtain ⟨e1, e2⟩ := h.ends
  have hkind : answer.fetchU8 (-1) = .ok p.kind.toNat := by
    refine fetch_last h.reply.usable (k := p.kind) (x := p.packed.all.flatMap RR.enc ++ (offsets 0 p.packed.all).flatMap Packed.cell ++
      be16 p.packed.an.length ++ be16 p.packed.ns.length ++ be16 p.packed.ar.length) ?_
    rw [h.reply.contents, Packed.enc]
    rfl
  unfold makeReply
  rw [answer_count h.reply]
  simp only [Res.ok_bind]
  rw [if_neg (by omega), doneTtl_eq cfg h.reply han h5 hx ht most]
  simp only [Res.ok_bind]
  generalize lifetime cfg most (cs.map Rec.ttl ++ [x.ttl]) = ttl at *
  have hsz : (encName qs).length + 10 + (encName r.target).length + 11 < 260 := by
    unfold keptSize at hsize
    rw [List.map_singleton, sizes_cons, aliasRec_size] at hsize
    simp [sizes] at hsize
    omega
  have hac : action.contents = be16 (encName r.target).length ++ encName r.target ++
      ((as.map Rec.target).flatMap entry ++ (be16 ((place 0 ((r :: as).map aliasEntry)).getLastD 0) ++ [17])) := by
    rw [h.aliases, Spec.aliases, entries]; simp [entry]
  obtain ⟨ra, d1⟩ := buf_drop h.asks.usable (pre := []) (l := encName qs) (post := be16 qtype) (by rw [h.asks.contents]; simp)
  obtain ⟨rb, d2⟩ := buf_drop h.usable (pre := be16 (encName r.target).length) (l := encName r.target) hac
  rw [be16_length] at d2
  have hn := h.name.1.2
  obtain ⟨o, o1, o2, o3, o4⟩ := oneCname_eq (question := query) (answer := action) (qo := 0) (ao := 2) (size := 260)
    h.name (h.names r (by simp)) d1 d2 (by omega) (by omega) (by omega) t0 t9 (by simp; omega) junk
  have hend := (read_at o2 (aliasRec_plain (ttl := ttl.toNat) (by omega) h.name (h.names r (by simp))) (pre := []) (post := []) (by rw [o4]; simp)).1
  have ol : o.contents.length = (encName qs).length + 10 + (encName r.target).length := by rw [o4, aliasRec_enc]
  rw [if_neg (by omega)] at o3
  obtain ⟨a, a1, a2, a3, a4⟩ := pushIgn_fits 0 o2 (by omega)
  have la : a.contents.length = o.contents.length + 2 := by rw [a4]; simp [be16_length]
  obtain ⟨b, b1, b2, b3, b4⟩ := pushIgn_fits (encName qs).length a2 (by omega)
  have lb : b.contents.length = a.contents.length + 2 := by rw [b4]; simp [be16_length]
  obtain ⟨c, c1, c2, c3, c4⟩ := pushIgn_fits 1 b2 (by omega)
  have lc : c.contents.length = b.contents.length + 2 := by rw [c4]; simp [be16_length]
  obtain ⟨d, d1, d2, d3, d4⟩ := pushIgn_fits 0 c2 (by omega)
  have ld : d.contents.length = c.contents.length + 2 := by rw [d4]; simp [be16_length]
  obtain ⟨e, e1', e2', e3', e4'⟩ := pushIgn_fits 0 d2 (by omega)
  have le : e.contents.length = d.contents.length + 2 := by rw [e4']; simp [be16_length]
  obtain ⟨f, f1, f2, f4⟩ := addcharIgn_fits e2' 0 (by omega)
  have hcr : createReply query action answer ttl junk = .ok f := by
    unfold createReply
    rw [e1, e2, hkind]
    simp only [Res.ok_bind]
    rw [if_neg (by simp), if_pos (by
      intro he
      exact hk (UInt8.toNat_inj.1 (by simpa using he)))]
    unfold altReply
    rw [o1]
    simp only [Res.ok_bind]
    rw [show o.getDnEnd 0 = .ok ((encName qs).length) by simpa [aliasRec] using hend]
    simp only [Res.ok_bind, a1, b1, c1, d1, e1', f1]
  rw [hcr]
  simp only [Res.ok_bind]
  rw [h.asks.contents, f4, e4', d4, c4, b4, a4, o4]
  congr 1
  simp [onlyAnswers, Answers.packed, Packed.enc, Packed.all, offsets, Packed.cell, aliasRec, Rec.toRR]

/-- What is kept for bank.f: no such name, with an address. -/
def exOdd : Answers := ⟨[exA exBank [1, 2, 3, 4]], [], [], 1⟩

example : makeReply exTimes exQuery (ofBytes (Spec.aliases exAs)) (ofBytes exOdd.packed.enc) 0 [] =
    .ok ⟨encName exW ++ be16 1, (onlyAnswers [exAlias exW exX]).packed.enc, 60⟩ :=
  alias_alone exTimes (by decide) (by decide) (r := exAlias exW exX) (as := [exAlias exX exBank]) (p := exOdd)
    { exKept with reply := reply_of _ (by decide +kernel) (by decide +kernel) (by decide) (by decide) (by decide +kernel) }
    (by decide) (cs := []) rfl (by decide) (by decide) (by decide) (by decide +kernel) 0 []

end Alias
end Dw
