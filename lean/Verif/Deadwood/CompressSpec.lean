import Verif.Deadwood.CompressSafe
/-!
# What compression of one name writes
-/

namespace Dw
namespace DwStr
open Spec

theorem compressName_spec {u q : DwStr} (hu : Usable u) (hq : Usable q) (junk : List UInt8) :
    ∀ (us : List (List UInt8)) (n uo : Nat) (c s : DwStr) (M : Mem) (d : List (List UInt8)) (es : List Nat),
    Usable c → Usable s → MemLe M c.mem → us.length < n → us.length < 200 → PlainAt u.mem uo us →
    NoRepeat (d ++ us) → c.max + q.len + 14 ≤ 16384 →
    s.contents = enc16 es → (∀ e ∈ es, EntryOk M c.len q d e) →
    ∀ {r : Nat} {c' s' : DwStr}, compressName u q junk n uo c s = .ok (r, c', s') → c'.len + 64 < c.max →
      r = uo + (encName us).length ∧ Usable c' ∧ Usable s' ∧ c'.max = c.max ∧ s'.max = s.max ∧
      (∃ x, c'.contents = c.contents ++ x ∧ 1 ≤ x.length ∧ x.length ≤ (encName us).length) ∧
      (∃ ls, SameName us ls ∧ BackHop (ext M c.len c'.mem) q.mem c'.len q.len false c.len ls) ∧
      EndsAt (ext M c.len c'.mem) c.len c'.len ∧
      ∃ es', s'.contents = enc16 es' ∧ ∀ e ∈ es', ∃ ls, GoodE (ext M c.len c'.mem) c'.len q e ls := by
  intro us
  induction us with
  | nil =>
    intro n uo c s M d es hc hs hM hn hn2 hP hno hbig hes hok r c' s' hres hroom
    obtain ⟨n, rfl⟩ : ∃ m, n = m + 1 := ⟨n - 1, by omega⟩
    have hul := PlainAt.lt hu hP
    have hsk : seekCompPointer u uo c q s = .ok none := by
      rw [seekCompPointer]
      simp only [hu.sane, hc.sane, Bool.not_true, Bool.or_self,
        decide_eq_false (show ¬ uo > u.len by omega), Bool.false_eq_true, if_false]
      rcases seekLoop_spec hu hc hq hs hM (by simp) hP hno 1000 [] es hes hok with h | ⟨e, ls, h1, h2, h3, h4⟩
      · exact h
      · exfalso
        apply h2.1
        simpa [SameName] using h3.symm
    have h0 : u.mem uo = some 0 := by cases hP; assumption
    have hgr : c.len ≤ c'.len := by
      rcases compressName_safe hu hq junk (n + 1) uo hc hs with e | ⟨e', c'', s'', e, g, -⟩
      · rw [e] at hres; cases hres
      · rw [e] at hres; cases hres; exact g.len hc
    obtain ⟨c₁, e1, u1, m1, c1⟩ := (addchar_exact 0 hc).2 (by rw [hc.clen]; omega)
    rw [compressName, hsk, Res.ok_bind] at hres
    simp only [mem_peek h0, Res.ok_bind] at hres
    rw [if_neg (by decide), if_pos trivial, e1] at hres
    simp only [orElse, Res.ok_bind, Res.ok.injEq, Prod.mk.injEq] at hres
    obtain ⟨rfl, rfl, rfl⟩ := hres
    have hcl : c₁.len = c.len + 1 := by rw [← u1.clen, c1]; simp [hc.clen]
    have hlast : (ext M c.len c₁.mem) c.len = some 0 := by
      simp only [ext, Nat.lt_irrefl, if_false]
      have := mem_new hc c1 (j := 0) (by simp)
      simpa using this
    have hname : BackHop (ext M c.len c₁.mem) q.mem c₁.len q.len false c.len [] := .root hlast
    refine ⟨by simp [encName, encLabels], u1, hs, m1, rfl, ⟨[0], c1, by simp, by simp [encName]⟩, ⟨[], rfl, hname⟩, (by rw [hcl]; exact .root hlast), es, hes, ?_⟩
    intro e he
    exact entry_finish (hok e he) (ext_le (memLe_lt hc hM)) (by omega) hname
  | cons l us ih =>
    intro n uo c s M d es hc hs hM hn hn2 hP hno hbig hes hok r c' s' hres hroom
    obtain ⟨n, rfl⟩ : ∃ m, n = m + 1 := ⟨n - 1, by omega⟩
    have hul := PlainAt.lt hu hP
    have hsk0 : seekCompPointer u uo c q s = seekLoop u uo c q s 1000 0 := by
      rw [seekCompPointer]
      simp only [hu.sane, hc.sane, Bool.not_true, Bool.or_self,
        decide_eq_false (show ¬ uo > u.len by omega), Bool.false_eq_true, if_false]
    have h2l := encName_two (l :: us) (by simp)
    rw [compressName, hsk0] at hres
    rcases seekLoop_spec hu hc hq hs hM (by omega) hP hno 1000 [] es hes hok with h | ⟨e, ls, h1, h2, h3, h4⟩
    · -- no pointer
      rw [show seekLoop u uo c q s 1000 0 = .ok none from h, Res.ok_bind] at hres
      cases hP with
      | label hl hP =>
        obtain ⟨hlfit, hldrop⟩ := LabelAt.drop hu hl
        have hlen := ofNat_len hl.le
        obtain ⟨-, g2, g3⟩ := labelAt_byte hl
        have hle := hl.le
        simp only [mem_peek hl.len, Res.ok_bind] at hres
        rw [if_neg g2, if_neg g3, hlen] at hres
        have hclen := hc.lt
        rcases pushU16_safe hs (v := c.len % 65536) with e1 | ⟨s1, e1, us1, ms1, cs1⟩
        · rw [e1] at hres; cases hres
        · rw [e1, Res.ok_bind] at hres
          obtain ⟨t, f1, f2, -, f4⟩ := substr_in hu uo (l.length + 1) 1 junk (by rw [hu.clen]; omega) (by omega)
          rw [hldrop] at f4
          rw [show ((1 : Nat) : Int) = 1 from rfl] at f1
          rw [f1, Res.ok_bind] at hres
          have hroom1 : c.len ≤ c'.len := by
            obtain ⟨c1, k1, k2⟩ := append_grow f2.live hc
            rw [k1, Res.ok_bind] at hres
            rcases compressName_safe hu hq junk n (uo + (l.length + 1)) k2.1 us1 with e | ⟨e', c'', s'', e, g, -⟩
            · rw [e] at hres; cases hres
            · rw [e] at hres; cases hres; exact (k2.trans g).len hc
          obtain ⟨c1, k1, k2, k3, k4⟩ := (append_exact f2 hc).2 (by rw [hc.clen, f4]; simp; omega)
          rw [k1] at hres
          simp only [orElse, Res.ok_bind] at hres
          rw [f4] at k4
          have hc1len : c1.len = c.len + (l.length + 1) := by rw [← k2.clen, k4]; simp [hc.clen]
          have hML := ext_le (m := c1.mem) (memLe_lt hc hM)
          have hlab : LabelAt (ext M c.len c1.mem) c.len l := by
            refine ⟨hl.pos, hl.le, ?_, ?_⟩
            · simp only [ext, Nat.lt_irrefl, if_false]
              have := mem_new hc k4 (j := 0) (by simp)
              simpa using this
            · intro j hj
              simp only [ext]
              rw [if_neg (by omega)]
              have := mem_new hc k4 (j := j + 1) (by simp; omega)
              rw [show c.len + 1 + j = c.len + (j + 1) by omega, this]
              simp
          have hmod : c.len % 65536 = c.len := by omega
          rw [hmod] at cs1
          have hx := ih n (uo + (l.length + 1)) c1 s1 (ext M c.len c1.mem) (d ++ [l]) (es ++ [c.len]) k2 us1
            (ext_mem_le hM k4) (by simpa using hn) (by simp at hn2; omega) hP (by simpa using hno)
            (by rw [k3]; exact hbig)
            (by rw [cs1, hes]; simp [enc16]) (by
              intro e he
              rcases List.mem_append.1 he with he | he
              · rcases hok e he with ⟨ls, hg⟩ | ⟨g1, w, g2, g3, g4⟩
                · exact Or.inl ⟨ls, hg.mono hML (by omega)⟩
                · refine Or.inr ⟨g1, w ++ [l], by simp, ?_, ?_⟩
                  · obtain ⟨a, rfl⟩ := g3; exact ⟨a, by simp⟩
                  · rw [hc1len]; exact (g4.mono hML).snoc hlab
              · simp at he
                subst he
                refine Or.inr ⟨by omega, [l], by simp, ⟨d, rfl⟩, ?_⟩
                rw [hc1len]
                exact .cons hlab .nil) hres (by rw [k3]; exact hroom)
          obtain ⟨x1, x2, x3, x4, x5, ⟨x, x6, x6', x6''⟩, ⟨ls, x7, x8⟩, xe, es', x9, x10⟩ := hx
          · rw [ext_ext k2 (by omega) x6] at x8 x10 xe
            have hm' : MemLe (ext M c.len c1.mem) (ext M c.len c'.mem) := by
              intro i v hv
              simp only [ext] at hv ⊢
              split at hv
              · rename_i g; rw [if_pos g]; exact hv
              · rename_i g; rw [if_neg g]; exact mem_append x6 _ _ hv
            refine ⟨?_, x2, x3, by rw [x4, k3], by rw [x5, ms1],
              ⟨(UInt8.ofNat l.length :: l) ++ x, by rw [x6, k4]; simp, by simp, ?_⟩, ⟨l :: ls, ?_, ?_⟩, ?_, es', x9, x10⟩
            · rw [x1, encName_cons]
              simp; omega
            · rw [encName_cons]; simp; omega
            · rw [sameName_cons]; exact ⟨rfl, x7⟩
            · exact .label (LabelAt.mono hm' hlab) (by rw [← hc1len]; exact x8)
            · exact .label (LabelAt.mono hm' hlab) (by rw [← hc1len]; exact xe)
    · -- pointer
      rw [show seekLoop u uo c q s 1000 0 = .ok (some (ptrOf q e)) from h4, Res.ok_bind] at hres
      simp only at hres
      have hclt := hc.lt
      have hp : ptrOf q e < 16384 ∧ (∃ b o z, (∀ plen, c.len ≤ plen → ptrTarget plen q.len (ptrOf q e) = some (b, o)) ∧
          sel M q.mem b o = some z ∧ z < 64 ∧ BackHop M q.mem c.len q.len b o ls ∧
          12 ≤ ptrOf q e ∧ (b = false → o < c.len)) := by
        obtain ⟨g0, ⟨g1, g2, g3⟩ | ⟨g1, g2, z, g3, g4⟩⟩ := h2
        · have hlt := PlainAt.lt hq g3
          have hlt2 := hq.lt
          refine ⟨by rw [ptrOf, if_pos g1]; omega, true, e % 16384, ?_⟩
          obtain ⟨hL, -⟩ := PlainAt.first g3
          refine ⟨_, ?_, hL.len, ?_, ?_, by rw [ptrOf, if_pos g1]; omega, fun h => by cases h⟩
          · intro plen _
            rw [ptrOf, if_pos g1, ptrTarget, if_pos (by omega), if_pos (by omega)]
            congr 2; omega
          · rw [UInt8.lt_iff_toNat_lt, ofNat_len hL.le]; have := hL.le; simp; omega
          · exact PlainAt.backHop (b := true) (q := q.mem) g3
        · have hlt := OneHop.lt hc (OneHop.mono hM (Nat.le_refl _) g2.oneHop)
          refine ⟨by rw [ptrOf, if_neg (by omega)]; omega, false, e, z, ?_, g3, g4, g2, by rw [ptrOf, if_neg (by omega)]; omega, fun _ => hlt⟩
          intro plen hpl
          rw [ptrOf, if_neg (by omega), ptrTarget, if_neg (by omega), if_pos (by omega)]
          congr 2; omega
      obtain ⟨hp1, b, o, z, hp2, hp3, hp4, hp5, hp6, hp7⟩ := hp
      rw [Nat.mod_eq_of_lt hp1] at hres
      rcases pushU16_safe hc (v := ptrOf q e + 49152) with e1 | ⟨c₁, e1, u1, m1, c1⟩
      · rw [e1] at hres; cases hres
      rw [e1, Res.ok_bind, getDnEnd_plain hu hP hn2, Res.ok_bind] at hres
      simp only [Res.ok.injEq, Prod.mk.injEq] at hres
      obtain ⟨rfl, rfl, rfl⟩ := hres
      rw [show be16 (ptrOf q e + 49152) = [UInt8.ofNat ((ptrOf q e + 49152) / 256), UInt8.ofNat (ptrOf q e + 49152)]
        from rfl] at c1
      have hcl : c₁.len = c.len + 2 := by rw [← u1.clen, c1]; simp [hc.clen]
      have hML := ext_le (m := c₁.mem) (memLe_lt hc hM)
      obtain ⟨hb1, hb2⟩ := ptr_bytes hp1
      have hx0 : ext M c.len c₁.mem c.len = some (UInt8.ofNat ((ptrOf q e + 49152) / 256)) := by
        simp only [ext, Nat.lt_irrefl, if_false]
        have := mem_new hc c1 (j := 0) (by simp)
        simpa using this
      have hname : BackHop (ext M c.len c₁.mem) q.mem c₁.len q.len false c.len ls := by
        refine .pointer (x := UInt8.ofNat ((ptrOf q e + 49152) / 256)) (y := UInt8.ofNat (ptrOf q e + 49152))
          (z := z) (b₁ := b) (i₁ := o) hx0 hb1 ?_ ?_ (by rw [hb2]; exact hp6) hp7 ?_ hp4 (hp5.mono hML (by omega))
        · simp only [ext]
          rw [if_neg (by omega)]
          have := mem_new hc c1 (j := 1) (by simp)
          simpa using this
        · rw [hb2]; exact hp2 _ (by omega)
        · cases b
          · exact hML _ _ hp3
          · exact hp3
      refine ⟨rfl, u1, hs, m1, rfl, ⟨_, c1, by simp, by simpa using h2l⟩, ⟨ls, h3, hname⟩, (by rw [hcl]; exact .pointer hx0 hb1), es, hes, ?_⟩
      intro e' he'
      exact entry_finish (hok e' he') hML (by omega) hname

end DwStr
end Dw
