import Verif.Deadwood.GlueProps
import Verif.Deadwood.TrustLemmas
import Verif.Deadwood.DissectProps
/-!
# Properties: the address a question goes to
-/

namespace Dw
namespace Trust
open DwStr Spec Ns Dissect

/-- The type of address asked for. -/
def askType (n : Nat) : Nat := if n = 1 ∨ n = 28 ∨ n = 255 then n else 1

/-- What a server in a list comes to, with what is in the cache: its address as it is there; or an address of an answer that is kept
for its name; or its name, the address of which is asked for first. -/
def Tells (cfg : Cfg) (c : List Entry) (rnd : Nat) : NsHost → Found → Prop
  | .addr a, f => f = .ip a
  | .named n, f =>
    f = .nobody ∨
    f = .name (encName (n.map (List.map lower)) ++ be16 cfg.glueType) ∨
    ∃ a v, f = .ip a ∧ get c (encName (n.map (List.map lower)) ++ be16 (askType cfg.glueType)) = some v ∧
      ∀ p : Packed, p.Ok → v = p.enc → (∀ r ∈ p.addresses, r.type = 1 → 4 ≤ r.rdata.length) → p.kind = 0 ∧ p.pick rnd = some a

theorem entryAddr_in {list : DwStr} (hl : Usable list) {o : Nat} {x : UInt8} {a rest : List UInt8}
    (h : list.contents.drop o = x :: a ++ rest) : entryAddr list o a.length = .ok (.ip a) := by
  have key : ∀ n, n ≤ a.length → (List.range n).foldl (fun r i => r.bind fun a => (list.fetchU8 (o + 1 + i : Nat)).bind fun x =>
      .ok (a ++ [UInt8.ofNat x])) (Res.ok []) = .ok (a.take n) := by
    intro n
    induction n with
    | zero => intro _; rfl
    | succ n ih =>
      intro hn
      have hg : list.contents[o + 1 + n]? = some a[n] := by
        have := congrArg (·[n + 1]?) h
        simp only [List.getElem?_drop] at this
        rw [show o + 1 + n = o + (n + 1) by omega, this]
        simp [List.getElem?_append_left (show n < a.length by omega)]
      obtain ⟨h1, h2⟩ := List.getElem?_eq_some_iff.1 hg
      rw [List.range_succ, List.foldl_append, ih (by omega)]
      simp only [List.foldl_cons, List.foldl_nil, Res.bind, (fetchU8_in hl (o + 1 + n) h1).1, h2]
      simp
  unfold entryAddr
  rw [key _ (Nat.le_refl _)]
  simp

theorem lowerBytes_enc {n : List (List UInt8)} (hn : Spec.NameOk n) : lowerBytes (encName n) = .ok (encName (n.map (List.map lower))) := by
  have hl := hn.2
  have hu := Remote.dstr_usable (l := encName n) (by omega)
  obtain ⟨s', e1, -, -, e4⟩ := lowerCase_exact hu hn.1 (rest := []) (by rw [Remote.dstr_contents]; simp)
  unfold lowerBytes
  rw [e1]
  simp only [List.append_nil] at e4
  simp [e4]

theorem getDname_plain' {raw : List UInt8} {offset : Nat} {ls : List (List UInt8)} (hok : Spec.NameOk ls) {rest : List UInt8}
    (h : raw.drop offset = encName ls ++ rest) :
    getDname raw offset 256 = .err ∨ getDname raw offset 256 = .ok (encName ls, ls.length) := by
  have := nameOk_length hok
  unfold getDname
  simp only [gt_iff_lt, show ¬ (260 < 256) by omega, if_false]
  rw [if_neg (by omega)]
  rcases dnameLoop_plain raw 256 260 (by omega) ls 400 offset [] rest (by omega) (by omega) hok.1 h with e | e
  · exact .inl e
  · exact .inr (by rw [e]; simp)

/-- An entry with a name. -/
theorem entryName_told {cfg : Cfg} {c : List Entry} {list : DwStr} (hl : Usable list) {o rnd : Nat} {n : List (List UInt8)} (hn : Spec.NameOk n)
    {rest : List UInt8} (h : list.contents.drop o = (NsHost.named n).enc ++ rest) (ho : o ≤ list.contents.length) {f : Found}
    (hf : entryName cfg c list o rnd = .ok f) : Tells cfg c rnd (.named n) f := by
  have hd : (list.buf.drop 3).drop o = encName n ++ (rest ++ list.buf.drop list.len) := by
    have hb : list.buf = list.contents ++ list.buf.drop list.len := by
      rw [DwStr.contents, List.take_append_drop]
    rw [List.drop_drop, Nat.add_comm, ← List.drop_drop]
    conv_lhs => rw [hb]
    rw [List.drop_append_of_le_length ho, h]
    simp [NsHost.enc, be16]
  unfold entryName at hf
  dsimp only at hf
  rcases getDname_plain' hn hd with e | e
  · rw [e] at hf
    cases hf
    exact .inl rfl
  · rw [e] at hf
    dsimp only at hf
    rw [lowerBytes_enc hn, Res.ok_bind] at hf
    rw [show (if cfg.glueType = 1 ∨ cfg.glueType = 28 ∨ cfg.glueType = 255 then cfg.glueType else 1) = askType cfg.glueType from rfl] at hf
    cases hg : get c (encName (n.map (List.map lower)) ++ be16 (askType cfg.glueType)) with
    | none =>
      rw [hg] at hf
      cases hf
      exact .inr (.inl rfl)
    | some v =>
      rw [hg] at hf
      dsimp only at hf
      cases hx : fromAnswer (Remote.dstr v) rnd with
      | err => rw [hx] at hf; cases hf
      | ub => rw [hx] at hf; cases hf
      | ok a =>
        rw [hx, Res.ok_bind] at hf
        cases a with
        | none => cases hf; exact .inr (.inl rfl)
        | some a =>
          cases hf
          refine .inr (.inr ⟨a, v, rfl, hg, fun p hp hv hA => ?_⟩)
          rw [hv, fromAnswer_exact hp hA] at hx
          have := Res.ok.inj hx
          by_cases hk : p.kind = 0
          · rw [if_pos hk] at this; exact ⟨hk, this⟩
          · rw [if_neg hk] at this; cases this

/-- C115.  Whichever server of a list is taken, what it comes to is what the list, and an answer in the cache for its name, say. -/
theorem getAddr_told {cfg : Cfg} {c : List Entry} {z : List (List UInt8)} (hz : Spec.NameOk z) {hs : List NsHost} (h0 : hs ≠ [])
    (h31 : hs.length ≤ 31) (hok : ∀ h ∈ hs, h.Ok) {cur cur' : Option Nat} {r : List Nat × Nat} {f : Found}
    (h : getAddr cfg c (Remote.dstr (referral (encName z) (hs.map NsHost.enc))) cur r = .ok (f, cur')) :
    ∃ x ∈ hs, Tells cfg c r.2 x f := by
  have hel : ∀ x ∈ hs, x.enc ≠ [] ∧ x.enc.length ≤ 258 := by
    intro x hx
    have := hok x hx
    cases x with
    | addr a => simp only [NsHost.Ok] at this; simp [NsHost.enc]; omega
    | named n => have := this.2; simp [NsHost.enc, be16]; omega
  have hzl := hz.2
  have hfl := entries_short (es := hs.map NsHost.enc) (fun e he => by
    obtain ⟨x, hx, rfl⟩ := List.mem_map.1 he
    exact (hel x hx).2) (by simpa using h31)
  have hsmall : (referral (encName z) (hs.map NsHost.enc)).length < 134217727 := by
    simp only [referral, List.length_append, flatMap_be16_length, place_length, List.length_map, List.length_cons, List.length_nil]
    omega
  have hu := Remote.dstr_usable hsmall
  obtain ⟨i, hi, k, c', e, rest, hd⟩ := referral_asked hu hz (es := hs.map NsHost.enc) (by simpa using h0) (by simpa using h31)
    (fun e he => by
      obtain ⟨x, hx, rfl⟩ := List.mem_map.1 he
      exact hel x hx) (Remote.dstr_contents _) cur r.1
  rw [List.length_map] at hi
  rw [List.getElem_map] at e hd
  have hx : hs[i] ∈ hs := List.getElem_mem hi
  refine ⟨hs[i], hx, ?_⟩
  unfold getAddr at h
  rw [e] at h
  dsimp only at h
  generalize hs[i] = x at *
  generalize ho : (encName z).length + ((hs.map NsHost.enc).take i).flatten.length = o at *
  have hlen : o ≤ (Remote.dstr (referral (encName z) (hs.map NsHost.enc))).contents.length := by
    by_contra hc
    rw [List.drop_eq_nil_of_le (by omega)] at hd
    have := (hel x hx).1
    cases hxe : x.enc with
    | nil => exact this hxe
    | cons _ _ => rw [hxe] at hd; cases hd
  have hxo := hok x hx
  cases x with
  | addr a =>
    rcases hxo with h4 | h16
    · have ht : ((NsHost.addr a).enc.headD 0).toNat = 1 := by simp [NsHost.enc, h4]
      rw [ht, if_pos rfl, ← h4, entryAddr_in hu (x := 1) (rest := rest) (by rw [hd]; simp [NsHost.enc, h4])] at h
      cases h
      rfl
    · have ht : ((NsHost.addr a).enc.headD 0).toNat = 28 := by simp [NsHost.enc, h16]
      rw [ht, if_neg (by decide), if_pos rfl, ← h16, entryAddr_in hu (x := 28) (rest := rest) (by rw [hd]; simp [NsHost.enc, h16])] at h
      cases h
      rfl
  | named n =>
    have ht : ((NsHost.named n).enc.headD 0).toNat = 2 := by simp [NsHost.enc]
    rw [ht, if_neg (by decide), if_neg (by decide), if_pos rfl] at h
    cases hf : entryName cfg c (Remote.dstr (referral (encName z) (hs.map NsHost.enc))) o r.2 with
    | err => rw [hf] at h; cases h
    | ub => rw [hf] at h; cases h
    | ok g =>
      rw [hf] at h
      cases h
      exact entryName_told hu hxo hd hlen hf

/-- C115.  The same for all attempts that are made when a question is sent. -/
theorem findAddr_told {cfg : Cfg} {c : List Entry} {z : List (List UInt8)} (hz : Spec.NameOk z) {hs : List NsHost} (h0 : hs ≠ [])
    (h31 : hs.length ≤ 31) (hok : ∀ h ∈ hs, h.Ok) : ∀ (rs : List (List Nat × Nat)) (cur cur' : Option Nat) (f : Found),
    findAddr cfg c (Remote.dstr (referral (encName z) (hs.map NsHost.enc))) rs cur = .ok (f, cur') → f ≠ .nobody →
    ∃ x ∈ hs, ∃ r ∈ rs, Tells cfg c r.2 x f
  | [], cur, cur', f, h, hn => by cases h; exact absurd rfl hn
  | r :: rs, cur, cur', f, h, hn => by
    unfold findAddr at h
    cases hg : getAddr cfg c (Remote.dstr (referral (encName z) (hs.map NsHost.enc))) cur r with
    | err => rw [hg] at h; cases h
    | ub => rw [hg] at h; cases h
    | ok x =>
      obtain ⟨g, cur2⟩ := x
      rw [hg, Res.ok_bind] at h
      dsimp only at h
      split at h
      · obtain ⟨x, hx, q, hq, ht⟩ := findAddr_told hz h0 h31 hok rs cur2 cur' f h hn
        exact ⟨x, hx, q, by simp [hq], ht⟩
      · cases h
        obtain ⟨x, hx, ht⟩ := getAddr_told hz h0 h31 hok hg
        exact ⟨x, hx, r, by simp, ht⟩

/-- C115.  If a question is sent to somebody of a list, the address it goes to is that of a server in the list, or an address of an answer
that is kept for the name of a server in the list. -/
theorem connect_told {cfg : Cfg} {s s' : State} {b : Nat} {sl sl' : Slot} {w : Wire} {junk : List UInt8} {k : Sock}
    {z : List (List UInt8)} (hz : Spec.NameOk z) {hs : List NsHost} (h0 : hs ≠ []) (h31 : hs.length ≤ 31) (hok : ∀ h ∈ hs, h.Ok)
    (hb : s.slots b = some sl) (hns : sl.ns = some (referral (encName z) (hs.map NsHost.enc))) (hno : sl.sock = none)
    (h : connect cfg s b w junk = .ok s') (hb' : s'.slots b = some sl') (hk : sl'.sock = some k) :
    k.list = referral (encName z) (hs.map NsHost.enc) ∧ k.id = w.id ∧ ∃ x ∈ hs, ∃ r ∈ w.tries.take 7, Tells cfg s.cache r.2 x (.ip k.ip) := by
  unfold connect at h
  rw [hb] at h
  dsimp only at h
  have hw : whom s sl junk = .ok (some (referral (encName z) (hs.map NsHost.enc), sl.up)) := by unfold whom; rw [hns]
  rw [hw, Res.ok_bind] at h
  dsimp only at h
  cases hf : findAddr cfg s.cache (Remote.dstr (referral (encName z) (hs.map NsHost.enc))) (w.tries.take 7) sl.current with
  | err => rw [hf] at h; cases h
  | ub => rw [hf] at h; cases h
  | ok y =>
    obtain ⟨f, cur⟩ := y
    rw [hf, Res.ok_bind] at h
    dsimp only at h
    cases f with
    | nobody =>
      cases h
      simp only [State.set, if_true, Option.some.injEq] at hb'
      rw [← hb'] at hk
      simp only at hk
      rw [hno] at hk; cases hk
    | ip a =>
      dsimp only at h
      cases h
      simp only [State.set, if_true, Option.some.injEq] at hb'
      rw [← hb'] at hk
      split at hk
      · simp only [Option.some.injEq] at hk
        rw [← hk]
        exact ⟨rfl, rfl, findAddr_told hz h0 h31 hok _ _ _ _ hf (by simp)⟩
      · simp only at hk; rw [hno] at hk; cases hk
    | name q =>
      dsimp only at h
      split at h
      · rename_i hc
        cases h
        simp only [State.set, if_neg (Ne.symm hc.2.1), if_true, Option.some.injEq] at hb'
        rw [← hb'] at hk
        simp only at hk; rw [hno] at hk; cases hk
      · cases h
        simp only [State.set, if_true, Option.some.injEq] at hb'
        rw [← hb'] at hk
        simp only at hk; rw [hno] at hk; cases hk

/-- C115.  When the answer for the name of a server is there, the question that waited for it goes to an address of this answer, and to
nobody if it has none. -/
theorem finish_glue {cfg : Cfg} {s : State} {b parent : Nat} {sl p : Slot} {w : Wire} {junk list : List UInt8} {a : Packed}
    (hb : s.slots b = some sl) (hr : sl.role = .glue parent list) (hp : s.slots parent = some p) (hc : p.child = some b)
    (ha : a.Ok) (hA : ∀ r ∈ a.addresses, r.type = 1 → 4 ≤ r.rdata.length) (hg : get s.cache sl.query = some a.enc) (hw : w.able = true) :
    finish cfg s b w junk = .ok (match (if a.kind = 0 then a.pick (w.tries.headD default).2 else none) with
      | some ip => s.set parent (some { p with sock := some ⟨w.id, ip, list⟩ })
      | none => s) := by
  unfold finish
  rw [hb]
  dsimp only
  rw [hg]
  dsimp only
  rw [hr]
  dsimp only
  rw [hp]
  dsimp only
  rw [if_neg (by simp [hc]), fromAnswer_exact ha hA, Res.ok_bind]
  split
  · rename_i e; rw [e]
  · rename_i ip e; rw [e, if_pos hw]

end Trust
end Dw
