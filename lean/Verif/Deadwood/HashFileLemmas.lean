import Verif.Deadwood.HashFileModel
import Verif.Deadwood.HashRun
/-! Helper lemmas about the cache file. -/

namespace Dw
open Spec (Cache Entry)

/-! ## Numbers -/

theorem beBytes_length (n x : Nat) : (beBytes n x).length = n := by
  induction n with
  | zero => rfl
  | succ n ih => simp [beBytes, ih]

/-- Value of a big-endian byte string. -/
def beVal (acc : Int) (l : List UInt8) : Int := l.foldl (fun a b => a * 256 + b.toNat) acc

theorem beVal_acc (l : List UInt8) : ∀ acc : Int, beVal acc l = acc * 256 ^ l.length + beVal 0 l := by
  induction l with
  | nil => intro acc; simp [beVal]
  | cons b l ih =>
    intro acc
    have e1 : beVal acc (b :: l) = beVal (acc * 256 + b.toNat) l := rfl
    have e2 : beVal 0 (b :: l) = beVal (0 * 256 + b.toNat) l := rfl
    rw [e1, e2, ih (acc * 256 + b.toNat), ih (0 * 256 + b.toNat), List.length_cons, Int.pow_succ,
      Int.add_mul]
    have : acc * 256 * 256 ^ l.length = acc * (256 ^ l.length * 256) := by
      rw [Int.mul_assoc, Int.mul_comm 256]
    rw [this, Int.add_mul]; omega

theorem beVal_beBytes (n x : Nat) (acc : Int) :
    beVal acc (beBytes n x) = acc * 256 ^ n + ((x % 256 ^ n : Nat) : Int) := by
  induction n generalizing acc with
  | zero => simp [beVal, beBytes, Nat.mod_one]
  | succ n ih =>
    have e1 : beVal acc (beBytes (n + 1) x) =
        beVal (acc * 256 + (UInt8.ofNat (x / 256 ^ n)).toNat) (beBytes n x) := rfl
    rw [e1, ih]
    have h1 : (UInt8.ofNat (x / 256 ^ n)).toNat = (x / 256 ^ n) % 256 := by simp
    rw [h1]
    have h2 : x % 256 ^ (n + 1) = (x / 256 ^ n % 256) * 256 ^ n + x % 256 ^ n := by
      rw [Nat.pow_succ, Nat.mod_mul, Nat.mul_comm, Nat.add_comm]
    rw [h2, Int.pow_succ, Int.add_mul, Int.mul_assoc, Int.mul_comm 256]
    rw [Int.natCast_add, Int.natCast_mul, Int.natCast_pow, Int.add_assoc]
    rfl

theorem Stream.getMore_cons (n : Nat) (acc : Int) (b : UInt8) (l : List UInt8) :
    Stream.getMore (n + 1) acc ⟨b :: l, false⟩ = Stream.getMore n (acc * 256 + b.toNat) ⟨l, false⟩ :=
  rfl

theorem Stream.getInt_cons (n : Nat) {b : UInt8} (hb : b.toNat < 128) (l : List UInt8) :
    Stream.getInt (n + 1) ⟨b :: l, false⟩ = Stream.getMore n b.toNat ⟨l, false⟩ := by
  have h127 : ¬ (127 : UInt8) < b := by
    rw [UInt8.lt_iff_toNat_lt]
    have : (127 : UInt8).toNat = 127 := rfl
    omega
  have : Stream.getInt (n + 1) ⟨b :: l, false⟩ =
      if 127 < b then (-1, ⟨l, false⟩) else Stream.getMore n b.toNat ⟨l, false⟩ := rfl
  rw [this, if_neg h127]

theorem Stream.getMore_ok : ∀ (l : List UInt8) (acc : Int) (r : List UInt8),
    Stream.getMore l.length acc ⟨l ++ r, false⟩ = (beVal acc l, ⟨r, false⟩)
  | [], acc, r => rfl
  | b :: l, acc, r => by
    rw [List.length_cons, List.cons_append, getMore_cons]
    exact getMore_ok l _ r

theorem Stream.getMore_short : ∀ (n : Nat) (acc : Int) (l : List UInt8), l.length < n →
    Stream.getMore n acc ⟨l, false⟩ = (-2, ⟨[], true⟩)
  | n + 1, acc, [], _ => by simp [getMore, getc]
  | n + 1, acc, b :: l, h => by
    rw [getMore_cons]
    exact getMore_short n _ l (by simpa using h)

theorem Stream.getInt_be {n x : Nat} (hn : 0 < n) (hx : x < 128 * 256 ^ (n - 1)) (r : List UInt8) :
    Stream.getInt n ⟨beBytes n x ++ r, false⟩ = ((x : Int), ⟨r, false⟩) := by
  obtain ⟨n, rfl⟩ : ∃ m, n = m + 1 := ⟨n - 1, by omega⟩
  rw [Nat.add_sub_cancel] at hx
  have hq : x / 256 ^ n < 128 := by
    rw [Nat.div_lt_iff_lt_mul (Nat.pow_pos (by omega))]; exact hx
  have hb : (UInt8.ofNat (x / 256 ^ n)).toNat = x / 256 ^ n := by simp; omega
  rw [beBytes, List.cons_append, getInt_cons n (by omega), hb]
  have := Stream.getMore_ok (beBytes n x) (x / 256 ^ n : Nat) r
  rw [beBytes_length] at this
  rw [this, beVal_beBytes]
  congr 1
  have h3 : x / 256 ^ n * 256 ^ n + x % 256 ^ n = x := by
    rw [Nat.mul_comm]; exact Nat.div_add_mod x _
  have h4 := congrArg (Nat.cast : Nat → Int) h3
  rw [Int.natCast_add, Int.natCast_mul, Int.natCast_pow] at h4
  exact h4

theorem Stream.getInt_eof (n : Nat) (l : List UInt8) :
    Stream.getInt n ⟨l, true⟩ = (-2, ⟨l, true⟩) := by simp [getInt]

/-- Reading a number cut short. -/
theorem Stream.getInt_short {n x m : Nat} (hn : 0 < n) (hx : x < 128 * 256 ^ (n - 1)) (hm : m < n)
    (r : List UInt8) :
    Stream.getInt n ⟨(beBytes n x ++ r).take m, false⟩ = (-2, ⟨[], true⟩) := by
  obtain ⟨n, rfl⟩ : ∃ k, n = k + 1 := ⟨n - 1, by omega⟩
  simp only [Nat.add_sub_cancel] at hx
  cases m with
  | zero =>
    simp only [List.take_zero, getInt, getc]
    rw [if_neg (by simp), if_pos (by decide)]
    simp
  | succ m =>
    have hq : x / 256 ^ n < 128 := by
      rw [Nat.div_lt_iff_lt_mul (Nat.pow_pos (by omega))]; exact hx
    have hb : (UInt8.ofNat (x / 256 ^ n)).toNat = x / 256 ^ n := by simp; omega
    rw [beBytes, List.cons_append, List.take_succ_cons, getInt_cons n (by omega)]
    apply getMore_short
    rw [List.length_take, List.length_append, beBytes_length]
    omega

theorem Stream.readBytes_ok : ∀ (l r : List UInt8),
    Stream.readBytes l.length ⟨l ++ r, false⟩ = (l, ⟨r, false⟩)
  | [], r => rfl
  | b :: l, r => by
    simp only [List.length_cons, readBytes, List.cons_append, getc]
    have := readBytes_ok l r
    simp [this]

theorem Stream.readBytes_eof : ∀ (n : Nat), (Stream.readBytes n ⟨[], true⟩).2 = ⟨[], true⟩
  | 0 => rfl
  | n + 1 => by simp [readBytes, getc, readBytes_eof n]

theorem Stream.readBytes_short : ∀ (n : Nat) (l : List UInt8), l.length < n →
    (Stream.readBytes n ⟨l, false⟩).2 = ⟨[], true⟩
  | n + 1, [], _ => by simp [readBytes, getc, readBytes_eof n]
  | n + 1, b :: l, h => by
    simp only [readBytes, getc]
    exact readBytes_short n l (by simpa using h)

theorem Stream.readBytes_length : ∀ (n : Nat) (s : Stream), (Stream.readBytes n s).1.length = n
  | 0, _ => rfl
  | n + 1, s => by simp [readBytes, readBytes_length n]

/-! ## Strings and elements -/

theorem putStr_eq {k : List UInt8} (h : k.length ≤ 16777216) :
    putStr k = beBytes 4 k.length ++ k := by
  rw [putStr, if_neg (by omega), putInt32, if_neg (by omega)]
  simp

theorem putStr_length {k : List UInt8} (h : k.length ≤ 16777216) :
    (putStr k).length = 4 + k.length := by
  rw [putStr_eq h, List.length_append, beBytes_length]

theorem Stream.getStr_ok {k : List UInt8} (h : k.length ≤ 16777216) (r : List UInt8) :
    Stream.getStr ⟨putStr k ++ r, false⟩ = (some k, ⟨r, false⟩) := by
  rw [putStr_eq h, List.append_assoc, getStr,
    Stream.getInt_be (by omega) (by simp; omega)]
  simp only [Int.toNat_natCast]
  rw [if_neg (by omega), if_neg (by omega), Stream.readBytes_ok]

theorem Stream.getStr_eof (l : List UInt8) : Stream.getStr ⟨l, true⟩ = (none, ⟨l, true⟩) := by
  simp [getStr, getInt_eof]

/-- Reading a string cut short: nothing, or end of file is reached. -/
theorem Stream.getStr_short {k : List UInt8} (h : k.length ≤ 16777216) (r : List UInt8) {m : Nat}
    (hm : m < 4 + k.length) :
    (Stream.getStr ⟨(putStr k ++ r).take m, false⟩).2 = ⟨[], true⟩ := by
  rw [putStr_eq h, List.append_assoc]
  by_cases h4 : m < 4
  · rw [getStr, Stream.getInt_short (by omega) (by simp; omega) h4]
    simp
  · have : (beBytes 4 k.length ++ (k ++ r)).take m = beBytes 4 k.length ++ (k ++ r).take (m - 4) := by
      rw [List.take_append, beBytes_length, List.take_of_length_le (by rw [beBytes_length]; omega)]
    rw [this, getStr, Stream.getInt_be (by omega) (by simp; omega)]
    simp only [Int.toNat_natCast]
    rw [if_neg (by omega), if_neg (by omega)]
    apply readBytes_short
    rw [List.length_take, List.length_append]
    omega

/-- A record that can be saved and read back. -/
structure GoodRec (k v : List UInt8) (x : Int) : Prop where
  k0 : k ≠ []
  v0 : v ≠ []
  kl : k.length ≤ 16777216
  vl : v.length ≤ 16777216
  x2 : 2 ≤ x
  xm : x < 9223372036854775808

/-- The bytes of a record. -/
def encRec (r : List UInt8 × List UInt8 × Int) : List UInt8 :=
  putStr r.1 ++ putStr r.2.1 ++ putInt64 r.2.2

theorem putInt64_eq {x : Int} (h : 0 ≤ x) : putInt64 x = beBytes 8 x.toNat := by
  rw [putInt64, if_neg (by omega)]

theorem Stream.getElement_ok {k v : List UInt8} {x : Int} (g : GoodRec k v x) (r : List UInt8) :
    Stream.getElement ⟨encRec (k, v, x) ++ r, false⟩ = (some (k, v, x), ⟨r, false⟩) := by
  have h1 := g.x2
  have h2 := g.xm
  simp only [getElement, encRec, List.append_assoc]
  rw [Stream.getStr_ok g.kl]
  simp only
  rw [Stream.getStr_ok g.vl]
  simp only
  rw [putInt64_eq (by omega), Stream.getInt_be (by omega) (by simp; omega)]
  have h3 : ((x.toNat : Nat) : Int) = x := by omega
  simp only [h3]
  rw [if_neg (by omega), if_neg]
  have := List.length_pos_iff.2 g.k0
  have := List.length_pos_iff.2 g.v0
  omega

theorem Stream.getElement_eof (l : List UInt8) :
    Stream.getElement ⟨l, true⟩ = (none, ⟨l, true⟩) := by
  simp [getElement, getStr_eof, getInt_eof]

theorem encRec_length {k v : List UInt8} {x : Int} (g : GoodRec k v x) :
    (encRec (k, v, x)).length = (4 + k.length) + (4 + v.length) + 8 := by
  have := g.x2
  simp only [encRec, List.length_append, putStr_length g.kl, putStr_length g.vl]
  rw [putInt64_eq (by omega), beBytes_length]

theorem Stream.getElement_short {k v : List UInt8} {x : Int} (g : GoodRec k v x) (r : List UInt8)
    {m : Nat} (hm : m < (encRec (k, v, x)).length) :
    (Stream.getElement ⟨(encRec (k, v, x) ++ r).take m, false⟩).1 = none := by
  rw [encRec_length g] at hm
  have h1 := g.x2
  have h2 := g.xm
  have hE : ∀ (s : Stream), (s.getStr).2 = ⟨[], true⟩ → (Stream.getElement s).1 = none := by
    intro s hs
    simp only [getElement, hs, getStr_eof, getInt_eof]
    cases s.getStr.1 <;> rfl
  simp only [encRec, List.append_assoc]
  by_cases hk : m < 4 + k.length
  · exact hE _ (Stream.getStr_short g.kl _ hk)
  · have hsplit : (putStr k ++ (putStr v ++ (putInt64 x ++ r))).take m =
        putStr k ++ (putStr v ++ (putInt64 x ++ r)).take (m - (4 + k.length)) := by
      rw [List.take_append, putStr_length g.kl,
        List.take_of_length_le (by rw [putStr_length g.kl]; omega)]
    rw [hsplit]
    generalize hm' : m - (4 + k.length) = m'
    by_cases hv : m' < 4 + v.length
    · simp only [getElement, Stream.getStr_ok g.kl, Stream.getStr_short g.vl _ hv, getInt_eof]
      cases (Stream.getStr ⟨(putStr v ++ (putInt64 x ++ r)).take m', false⟩).1
      · rfl
      · simp
    · have hsplit2 : (putStr v ++ (putInt64 x ++ r)).take m' =
          putStr v ++ (putInt64 x ++ r).take (m' - (4 + v.length)) := by
        rw [List.take_append, putStr_length g.vl,
          List.take_of_length_le (by rw [putStr_length g.vl]; omega)]
      rw [hsplit2]
      simp only [getElement, Stream.getStr_ok g.kl, Stream.getStr_ok g.vl]
      rw [putInt64_eq (by omega), Stream.getInt_short (by omega) (by simp; omega) (by omega)]
      simp

end Dw
