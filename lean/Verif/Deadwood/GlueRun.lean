import Verif.Deadwood.GlueNear
import Verif.Deadwood.AliasProps
/-!
# Properties: what becomes of a request that another one is for
-/

namespace Dw
namespace Trust
open DwStr Spec Ns Dissect Alias

/-- C107.  If aliases lead to a name for which nothing is kept, the name is asked for; and when the answer for it is there, the answer for
the name that was asked for first is put in the cache: a record for each alias, and the records of the answer. -/
theorem alias_joined {cfg : Cfg} (h30 : 30 ≤ cfg.times.max) (hmax : cfg.times.max < 4294967296) {s s1 : State} {b : Nat} {sl : Slot}
    {q : List UInt8} {w : Wire} {most : Int} {junk : List UInt8} {as : List Rec} (hno : get s.cache q = none) (hw : w.able = true)
    (hb : w.free ≠ b) (hf : s.slots w.free = none) (h : follow cfg s b sl (Spec.aliases as) q most w junk = .ok s1) :
    ∃ c1 p1, s1.slots w.free = some c1 ∧ s1.slots b = some p1 ∧ c1.query = q ∧ p1.query = sl.query ∧
      ∀ (s2 : State) (c2 p2 : Slot) (v : List UInt8), s2.slots w.free = some c2 → c2.query = q → c2.role = c1.role →
        s2.slots b = some p2 → p2.query = sl.query → get s2.cache q = some v → get s2.cache (aliasKey sl.query) = some (Spec.aliases as) →
        ∀ (qs : List (List UInt8)) (qtype : Nat) (p : Answers) (cs : List Rec) (x : Rec) (rest : List Rec),
          Alias.Kept (Remote.dstr sl.query) (Remote.dstr (Spec.aliases as)) (Remote.dstr v) qs qtype as p → p.kind = 0 →
          p.an = cs ++ x :: rest → (∀ r ∈ cs, r.type = 5) → x.type ≠ 5 → (∀ r ∈ cs ++ [x], r.ttl < 2147483648) →
          as.length ≤ 12 → as.length + p.an.length ≤ 15 → keptSize (links 0 qs (as.map Rec.target) ++ p.an) ≤ 1020 →
          ∀ w' junk', finish cfg s2 w.free w' junk' = .ok { s2 with cache := (put s2.cache (encName qs ++ be16 qtype)
            (onlyAnswers (links (lifetime cfg.times 0 (cs.map Rec.ttl ++ [x.ttl])).toNat qs (as.map Rec.target) ++ p.an)).packed.enc) } := by
  unfold follow at h
  rw [hno] at h
  dsimp only at h
  rw [if_pos ⟨hw, hb, hf⟩] at h
  cases h
  refine ⟨.fresh q (.link b), { sl with child := some w.free }, by simp [State.set], by simp [State.set, Ne.symm hb], rfl, rfl, ?_⟩
  intro s2 c2 p2 v hc2 hq hr hp2 hpq hg ha qs qtype p cs x rest hk hk0 han h5 hx ht h12 h15 hsz w' junk'
  have hr' : c2.role = .link b := hr
  unfold finish
  rw [hc2]
  dsimp only
  rw [hq, hg]
  dsimp only
  rw [hr']
  dsimp only
  rw [hp2]
  dsimp only
  rw [hpq, ha]
  dsimp only
  unfold finish.join
  rw [alias_answer cfg.times h30 hmax hk hk0 han h5 hx ht h12 h15 hsz 0 junk']

/-! ### Examples -/

/-- y.w -/
def gY : List (List UInt8) := [[121], [119]]

/-- x.v.c is an alias of y.w. -/
def gAliasPacket : List UInt8 :=
  [0, 7, 0x84, 0, 0, 1, 0, 1, 0, 0, 0, 0, 1, 120, 1, 118, 1, 99, 0, 0, 1, 0, 1,
   0xc0, 12, 0, 5, 0, 1, 0, 0, 1, 44, 0, 5, 1, 121, 1, 119, 0]

/-- The address of y.w is 5.5.5.5. -/
def gYPacket : List UInt8 :=
  [0, 8, 0x84, 0, 0, 1, 0, 1, 0, 0, 0, 0, 1, 121, 1, 119, 0, 0, 1, 0, 1,
   0xc0, 12, 0, 1, 0, 1, 0, 0, 1, 44, 0, 4, 5, 5, 5, 5]

/-- The servers of v.c say that x.v.c is y.w, the root server what the address of y.w is. -/
def gEvs : List Ev :=
  [.start 0 tAsk, .send 0 tWire, .receive 0 (tFill gAliasPacket) 40 [(tWire, 1)], .send 1 ⟨8, [([], 0)], 2, true⟩,
   .receive 1 (tFill gYPacket) 37 [], .finish 1 tWire]

set_option maxRecDepth 100000 in
/-- The client is answered with the alias and the address. -/
theorem gEvs_run : ∃ s, run tCfg [] (State.init [([], tRoot), (tV, tEvil)]) gEvs = .ok s ∧
    get s.cache tAsk = some (onlyAnswers [⟨tQ, 5, [0, 1], 300, [], [gY], []⟩, ⟨gY, 1, [0, 1], 300, [], [], [5, 5, 5, 5]⟩]).packed.enc := by
  have : ∀ r : Res State, (match r with | .ok s => get s.cache tAsk | _ => none) = some (onlyAnswers [⟨tQ, 5, [0, 1], 300, [], [gY], []⟩, ⟨gY, 1, [0, 1], 300, [], [], [5, 5, 5, 5]⟩]).packed.enc →
      ∃ s, r = .ok s ∧ get s.cache tAsk = some (onlyAnswers [⟨tQ, 5, [0, 1], 300, [], [gY], []⟩, ⟨gY, 1, [0, 1], 300, [], [], [5, 5, 5, 5]⟩]).packed.enc := by
    intro r h
    cases r with
    | ok s => exact ⟨s, rfl, h⟩
    | err => cases h
    | ub => cases h
  exact this _ (by decide +kernel)

/-- Of an answer that is kept without other sections, an address is the data of an A record of it. -/
theorem pick_answer {as : List RR} {k : UInt8} {rnd : Nat} {a : List UInt8} (h : (⟨as, [], [], k⟩ : Packed).pick rnd = some a) :
    ∃ r ∈ as, r.type = 1 ∧ a = r.rdata.take 4 := by
  unfold Packed.pick at h
  split at h
  · rename_i r hr
    split at h
    · rename_i h1
      have := List.mem_of_mem_take (List.mem_filter.1 (List.mem_of_getElem? hr)).1
      simp only [Packed.all, List.append_nil, List.mem_reverse] at this
      exact ⟨r, this, h1, (Option.some.inj h).symm⟩
    · cases h
  · cases h

/-- The list of a server of v.c that is known by its name, y.w. -/
def gList : List UInt8 := referral (encName tV) ([NsHost.named gY].map NsHost.enc)

/-- The server of v.c is asked for x.v.c; its address is asked for first. -/
def gGlue : List Ev :=
  [.start 0 tAsk, .send 0 tWire, .send 1 ⟨8, [([], 0)], 2, true⟩, .receive 1 (tFill gYPacket) 37 [], .finish 1 tWire]

set_option maxRecDepth 100000 in
/-- The question goes to the address in the reply of the root server. -/
theorem gGlue_run : ∃ s sl k, run tCfg [] (State.init [([], tRoot), (tV, gList)]) gGlue = .ok s ∧ s.slots 0 = some sl ∧ sl.sock = some k ∧
    k.ip = [5, 5, 5, 5] ∧ k.list = gList := by
  have hs : tSock (run tCfg [] (State.init [([], tRoot), (tV, gList)]) gGlue) = some (tAsk, some gList, [5, 5, 5, 5], gList) := by
    decide +kernel
  cases h : run tCfg [] (State.init [([], tRoot), (tV, gList)]) gGlue with
  | ok s =>
    rw [h] at hs
    obtain ⟨sl, k, h1, h2, -, -, h5, h6⟩ := sock_some hs
    exact ⟨s, sl, k, rfl, h1, h2, h5, h6⟩
  | err => rw [h] at hs; cases hs
  | ub => rw [h] at hs; cases hs

/-- The answer for y.w: an alias and two addresses. -/
def gKept : Packed := (onlyAnswers [⟨gY, 5, [0, 1], 300, [], [tV], []⟩, exA tV [1, 2, 3, 4], exA tV [5, 6, 7, 8]]).packed

theorem gKept_ok : gKept.Ok where
  recs := by
    intro r hr
    have : r ∈ gKept.all := hr
    simp only [gKept, Answers.packed, onlyAnswers, Packed.all, List.map_cons, List.map_nil, List.append_nil, List.mem_cons,
      List.not_mem_nil, or_false] at this
    rcases this with rfl | rfl | rfl <;> exact ⟨by decide +kernel, by decide +kernel, by decide +kernel, by decide +kernel⟩
  size := by decide +kernel
  kind := by decide +kernel

theorem gKept_four : ∀ r ∈ gKept.addresses, r.type = 1 → 4 ≤ r.rdata.length := by decide +kernel

/-- Either address may be chosen, and nothing else. -/
example : fromAnswer (Remote.dstr gKept.enc) 0 = .ok (some [5, 6, 7, 8]) ∧ fromAnswer (Remote.dstr gKept.enc) 1 = .ok (some [1, 2, 3, 4]) := by
  rw [fromAnswer_exact gKept_ok gKept_four, fromAnswer_exact gKept_ok gKept_four]
  decide +kernel

def gCache : List Entry := [⟨encName gY ++ be16 1, gKept.enc, false⟩]

theorem gY_ok : Spec.NameOk gY := ⟨by unfold LabelsOk; decide, by decide⟩
theorem gV_ok : Spec.NameOk tV := ⟨by unfold LabelsOk; decide, by decide⟩

/-- With the answer in the cache, the address of the server is there at once. -/
example : entryName tCfg gCache (Remote.dstr gList) 5 1 = .ok (.ip [1, 2, 3, 4]) := by
  rw [(entryName_near (cfg := tCfg) (c := gCache) 1 gY_ok (by decide) (rest := [0, 5, 1, 16]) (by decide +kernel) (by decide)).2 gKept gKept_ok gKept_four
    (by decide +kernel)]
  decide +kernel

/-- Without, it is asked for. -/
example : entryName tCfg [] (Remote.dstr gList) 5 1 = .ok (.name (encName gY ++ be16 1)) :=
  (entryName_near (cfg := tCfg) (c := []) 1 gY_ok (by decide) (rest := [0, 5, 1, 16]) (by decide +kernel) (by decide)).1 rfl

def gSlot : Slot := ⟨tAsk, none, some gList, false, none, none, 1, .client⟩
def gState : State := ⟨gCache, fun i => if i = 0 then some gSlot else none, [], []⟩

set_option maxRecDepth 100000 in
/-- And the question goes there. -/
example : ∃ s' sl' k, connect tCfg gState 0 tWire [] = .ok s' ∧ s'.slots 0 = some sl' ∧ sl'.sock = some k ∧
    ∃ x ∈ [NsHost.named gY], ∃ r ∈ tWire.tries.take 7, Tells tCfg gCache r.2 x (.ip k.ip) := by
  have hs : tSock (connect tCfg gState 0 tWire []) = some (tAsk, some gList, [5, 6, 7, 8], gList) := by decide +kernel
  cases h : connect tCfg gState 0 tWire [] with
  | ok s =>
    rw [h] at hs
    obtain ⟨sl, k, h1, h2, -, -, -, -⟩ := sock_some hs
    exact ⟨s, sl, k, rfl, h1, h2, (connect_told gV_ok (hs := [.named gY]) (by simp) (by simp)
      (by intro x hx; rw [List.mem_singleton.1 hx]; exact gY_ok) (sl := gSlot) rfl rfl rfl h h1 h2).2.2⟩
  | err => rw [h] at hs; cases hs
  | ub => rw [h] at hs; cases hs

/-- Finding: fifteen servers of v.c are known by their IPv6 addresses, one by its name, which is behind them: this one is never asked. -/
example : getAddr tCfg gCache (Remote.dstr (referral (encName tV)
    ((List.replicate 15 (NsHost.addr (List.replicate 16 1)) ++ [NsHost.named gY]).map NsHost.enc))) (some 3) ([], 0) = .ok (.nobody, some 0) ∧
    getAddr tCfg gCache (Remote.dstr (referral (encName tV) (([NsHost.named gY] ++ List.replicate 15 (NsHost.addr (List.replicate 16 1))).map NsHost.enc)))
      (some 2) ([], 0) = .ok (.ip [5, 6, 7, 8], some 15) := by
  decide +kernel

/-- A request waits for the address of y.w. -/
def gWait : State := ⟨gCache, fun i => if i = 0 then some { gSlot with child := some 1 } else
  if i = 1 then some (.fresh (encName gY ++ be16 1) (.glue 0 gList)) else none, [], []⟩

example : finish tCfg gWait 1 tWire [] = .ok (gWait.set 0 (some { gSlot with child := some 1, sock := some ⟨7, [5, 6, 7, 8], gList⟩ })) := by
  rw [finish_glue (s := gWait) (b := 1) (parent := 0) (list := gList) rfl rfl rfl rfl gKept_ok gKept_four (by decide +kernel) rfl]
  have : (if gKept.kind = 0 then gKept.pick (tWire.tries.headD default).2 else none) = some [5, 6, 7, 8] := by decide +kernel
  rw [this]
  rfl

end Trust
end Dw
