import Verif.Model.Codec
import Verif.Spec.Codec
import Verif.Lemmas.VarInt
import Mathlib.Tactic.Ring
/-! Helper lemmas for the value codec. -/
namespace Verif.Codec
open VarInt

@[simp] theorem Rd.pure_apply {σ α : Type} (a : α) (inp : List σ) : Rd.pure a inp = .ok (a, inp) := rfl
@[simp] theorem Rd.bind_apply {σ α β : Type} (r : Rd σ α) (f : α → Rd σ β) (inp : List σ) :
    Rd.bind r f inp = (r inp).bind fun p => f p.1 p.2 := rfl
@[simp] theorem Rd.fail_apply {σ α : Type} (inp : List σ) : (Rd.fail : Rd σ α) inp = .err := rfl
@[simp] theorem Rd.lift_apply {σ α : Type} (r : Res α) (inp : List σ) :
    Rd.lift r inp = r.map fun a => (a, inp) := rfl
@[simp] theorem readOne_cons {σ : Type} (b : σ) (rest : List σ) : readOne (b :: rest) = .ok (b, rest) := rfl
@[simp] theorem readOne_nil {σ : Type} : readOne ([] : List σ) = .err := rfl

/-! ### bits -/

@[simp] theorem appendBits_length (v n : Nat) : (appendBits v n).length = n := by
  induction n with
  | zero => rfl
  | succ n ih => simp [appendBits, ih]

theorem appendBits_zero (n : Nat) : appendBits 0 n = List.replicate n false := by
  induction n with
  | zero => rfl
  | succ n ih => simp [appendBits, ih, List.replicate_succ]

theorem readBits_appendBits (v n acc : Nat) (rest : List Bool) :
    readBits n acc (appendBits v n ++ rest) = .ok (acc * 2 ^ n + v % 2 ^ n, rest) := by
  induction n generalizing acc with
  | zero => simp [readBits, appendBits, Nat.mod_one]
  | succ n ih =>
    simp only [appendBits, List.cons_append, readBits, Rd.bind_apply, readOne_cons, Res.bind_ok, ih]
    congr 2
    have h1 : (v / 2 ^ n % 2 == 1).toNat = v / 2 ^ n % 2 := by
      rcases Nat.mod_two_eq_zero_or_one (v / 2 ^ n) with h | h <;> simp [h]
    rw [h1, Nat.pow_succ, Nat.mod_mul, Nat.add_mul, Nat.mul_assoc, Nat.mul_comm 2 (2 ^ n),
      Nat.mul_comm (2 ^ n) (v / 2 ^ n % 2)]
    omega

theorem readNext1_replicate (n : Nat) (rest : List Bool) :
    readNext1 (List.replicate n false ++ (true :: rest)) = .ok (n, rest) := by
  induction n with
  | zero => rfl
  | succ n ih => simp [List.replicate_succ, readNext1, ih]

theorem foldl_bits (l : List Bool) (acc : Nat) :
    l.foldl (fun a b => a * 2 + b.toNat) acc = acc * 2 ^ l.length + bitsVal l := by
  induction l generalizing acc with
  | nil => simp [bitsVal]
  | cons b l ih =>
    simp only [bitsVal, List.foldl_cons, List.length_cons] at *
    rw [ih, ih (0 * 2 + b.toNat), Nat.pow_succ]
    ring

theorem bitsVal_cons (b : Bool) (l : List Bool) : bitsVal (b :: l) = b.toNat * 2 ^ l.length + bitsVal l := by
  rw [bitsVal, List.foldl_cons, foldl_bits]; simp

theorem bitsVal_lt (l : List Bool) : bitsVal l < 2 ^ l.length := by
  induction l with
  | nil => simp [bitsVal]
  | cons b l ih =>
    rw [bitsVal_cons, List.length_cons, Nat.pow_succ]
    cases b <;> simp <;> omega

theorem appendBits_add_mul (v k n : Nat) : appendBits (k * 2 ^ n + v) n = appendBits v n := by
  have key : ∀ m, m ≤ n → appendBits (k * 2 ^ n + v) m = appendBits v m := by
    intro m
    induction m with
    | zero => intro _; rfl
    | succ m ih =>
      intro hm
      simp only [appendBits, ih (by omega)]
      congr 1
      have : k * 2 ^ n = 2 ^ m * (2 * (k * 2 ^ (n - m - 1))) := by
        have : 2 ^ n = 2 ^ m * (2 * 2 ^ (n - m - 1)) := by
          rw [← Nat.pow_succ', ← Nat.pow_add]; congr 1; omega
        rw [this]; ring
      rw [this, Nat.mul_add_div (Nat.pow_pos (by omega)), Nat.mul_add_mod]
  exact key n (Nat.le_refl n)

theorem appendBits_bitsVal (l : List Bool) : appendBits (bitsVal l) l.length = l := by
  induction l with
  | nil => rfl
  | cons b l ih =>
    rw [List.length_cons, appendBits, bitsVal_cons, appendBits_add_mul, ih]
    have h := bitsVal_lt l
    congr 1
    rw [Nat.mul_comm, Nat.mul_add_div (Nat.pow_pos (by omega)), Nat.div_eq_of_lt h]
    cases b <;> rfl

theorem bytesToBits_bitsToBytes (l : List Bool) :
    ∃ k, bytesToBits (bitsToBytes l) = l ++ List.replicate k false := by
  induction l using bitsToBytes.induct with
  | case1 => exact ⟨0, by simp [bitsToBytes, bytesToBits]⟩
  | case2 b l ih =>
    obtain ⟨k, hk⟩ := ih
    rw [bitsToBytes]
    generalize hc : (b :: List.take 7 l) ++ List.replicate (8 - (b :: List.take 7 l).length) false = c
    have hlen : c.length = 8 := by
      rw [← hc]; simp
    have hlt := bitsVal_lt c
    rw [hlen] at hlt
    have hbits : appendBits (UInt8.ofNat (bitsVal c)).toNat 8 = c := by
      have h8 : (UInt8.ofNat (bitsVal c)).toNat = bitsVal c := by
        simp; omega
      rw [h8]
      have := appendBits_bitsVal c
      rwa [hlen] at this
    simp only [bytesToBits, List.flatMap_cons] at *
    rw [hbits, hk]
    by_cases h : l.length ≤ 7
    · have h1 : l.drop 7 = [] := List.drop_eq_nil_of_le h
      have h2 : l.take 7 = l := List.take_of_length_le h
      rw [h1]
      refine ⟨7 - l.length + k, ?_⟩
      rw [← hc, h2, List.nil_append, List.append_assoc, ← List.replicate_append_replicate]
      congr 2
      simp
    · refine ⟨k, ?_⟩
      have h0 : 8 - (b :: List.take 7 l).length = 0 := by simp; omega
      rw [← hc, h0]
      simp only [List.replicate_zero, List.append_nil, List.cons_append]
      rw [← List.append_assoc, List.take_append_drop]

/-! ### reading exact amounts -/

theorem readN_append (bs rest : Bytes) : readN bs.length (bs ++ rest) = .ok (bs, rest) := by
  unfold readN
  simp

theorem readN_append' (bs rest : Bytes) (n : Nat) (h : n = bs.length) :
    readN n (bs ++ rest) = .ok (bs, rest) := by subst h; exact readN_append _ _

theorem readBuf_append (bs rest : Bytes) (n : Nat) (h : n = bs.length) (hlt : n < 2 ^ 63) :
    readBuf n (bs ++ rest) = .ok (bs, rest) := by
  unfold readBuf
  rw [if_neg (by omega), readN_append' _ _ _ h]

theorem strOfBytes_strBytes (s : String) : strOfBytes (strBytes s) = some s := by
  unfold strOfBytes strBytes
  simp [String.fromUTF8?]
  exact ⟨s.isValidUTF8, rfl⟩

theorem readString_append (s : String) (rest : Bytes) (n : Nat) (h : n = (strBytes s).length) :
    readString n (strBytes s ++ rest) = .ok (s, rest) := by
  simp [readString, readN_append' _ _ _ h, strOfBytes_strBytes]

@[simp] theorem leBytes_length (n v : Nat) : (leBytes n v).length = n := by
  induction n generalizing v with
  | zero => rfl
  | succ n ih => simp [leBytes, ih]

theorem fromBytes_leBytes (n v : Nat) : fromBytes (leBytes n v) = v % 256 ^ n := by
  induction n generalizing v with
  | zero => simp [leBytes, Nat.mod_one]
  | succ n ih =>
    rw [leBytes, fromBytes_cons, ih, Nat.pow_succ', Nat.mod_mul]
    simp
    omega

theorem readWords_append (w : Nat) (vs : List Nat) (rest : Bytes) :
    readWords w vs.length (vs.flatMap (leBytes w) ++ rest) = .ok (vs.map (· % 256 ^ w), rest) := by
  induction vs with
  | nil => simp [readWords, readTimes]
  | cons v vs ih =>
    unfold readWords at ih ⊢
    simp only [List.length_cons, readTimes, List.flatMap_cons, List.append_assoc, Rd.bind_apply,
      readN_append' (leBytes w v) _ w (by simp), Res.bind_ok, Rd.pure_apply, ih, List.map_cons,
      fromBytes_leBytes]

theorem asUsize_of (n : Nat) (h : n < 2 ^ 63) : asUsize (n : Int) = n := by
  unfold asUsize; omega

theorem inI64_of (n : Nat) (h : n < 2 ^ 63) : InI64 (n : Int) := by
  unfold InI64; omega

theorem write_readVarInt (v : Int) (h : InI64 v) (rest : Bytes) :
    readVarInt (write v ++ rest) = .ok (v, rest) := by
  have hl := encode_length_i64 h
  have : (UInt8.ofNat (encode v).length).toNat = (encode v).length := by simp; omega
  simp [readVarInt, write, this, readBuf_append (encode v) rest _ rfl (by omega), decodeChecked, hl,
    decode_encode]

theorem readLen_append (n : Nat) (rest : Bytes) (size : Nat) (h : n < 2 ^ 63) (hs : size = (lenBytes n).length) :
    readLen size (lenBytes n ++ rest) = .ok (n, rest) := by
  have hl := encode_length_i64 (inI64_of n h)
  have : (lenBytes n).length ≤ 8 := hl
  simp only [readLen, Rd.bind_apply, readBuf_append _ _ _ hs (by omega), Res.bind_ok, Rd.pure_apply]
  rw [lenBytes, decode_encode, asUsize_of n h]

theorem i8_roundtrip (i : Int) (h : -128 ≤ i ∧ i < 128) : i8OfByte (byteOfI8 i) = i := by
  unfold i8OfByte byteOfI8
  have : (UInt8.ofNat (i % 256).toNat).toNat = (i % 256).toNat := by simp; omega
  rw [this]
  split <;> omega

/-! ### stability under extension of the input -/

/-- Reading more input after a successful (or panicking) read changes nothing. -/
structure Stable {σ α : Type} (r : Rd σ α) : Prop where
  ok : ∀ inp a rest ext, r inp = .ok (a, rest) → r (inp ++ ext) = .ok (a, rest ++ ext)
  panic : ∀ inp ext, r inp = .panic → r (inp ++ ext) = .panic

theorem Stable.pure {σ α : Type} (a : α) : Stable (Rd.pure a : Rd σ α) := by
  constructor <;> simp

theorem Stable.fail {σ α : Type} : Stable (Rd.fail : Rd σ α) := by
  constructor <;> simp

theorem Stable.lift {σ α : Type} (r : Res α) : Stable (Rd.lift r : Rd σ α) := by
  constructor
  · cases r <;> simp
  · cases r <;> simp

theorem Stable.bind {σ α β : Type} {r : Rd σ α} {f : α → Rd σ β} (hr : Stable r) (hf : ∀ a, Stable (f a)) :
    Stable (Rd.bind r f) := by
  constructor
  · intro inp b rest ext h
    rw [Rd.bind_apply] at h ⊢
    obtain ⟨⟨a, mid⟩, h1, h2⟩ := Res.bind_eq_ok.mp h
    rw [hr.ok _ _ _ ext h1, Res.bind_ok]
    exact (hf a).ok _ _ _ ext h2
  · intro inp ext h
    rw [Rd.bind_apply] at h ⊢
    cases hc : r inp with
    | ok p =>
      obtain ⟨a, mid⟩ := p
      rw [hc, Res.bind_ok] at h
      rw [hr.ok _ _ _ ext hc, Res.bind_ok]
      exact (hf a).panic _ _ h
    | err => rw [hc] at h; simp at h
    | panic => rw [hr.panic _ ext hc]; rfl

theorem Stable.readOne {σ : Type} : Stable (readOne : Rd σ σ) := by
  constructor
  · intro inp a rest ext h
    cases inp with
    | nil => simp at h
    | cons b inp => simp at h; obtain ⟨rfl, rfl⟩ := h; rfl
  · intro inp ext h
    cases inp <;> simp at h

theorem Stable.readN (n : Nat) : Stable (readN n) := by
  constructor
  · intro inp a rest ext h
    unfold Codec.readN at h ⊢
    split at h
    · simp at h
    · rename_i hl
      simp at h
      obtain ⟨rfl, rfl⟩ := h
      rw [if_neg (by simp; omega), List.take_append_of_le_length (by omega),
        List.drop_append_of_le_length (by omega)]
  · intro inp ext h
    unfold Codec.readN at h
    split at h <;> simp at h

theorem Stable.readBuf (n : Nat) : Stable (readBuf n) := by
  unfold Codec.readBuf
  constructor
  · intro inp a rest ext h
    by_cases hn : 2 ^ 63 ≤ n
    · rw [if_pos hn] at h; simp at h
    · rw [if_neg hn] at h ⊢; exact (Stable.readN n).ok _ _ _ ext h
  · intro inp ext h
    by_cases hn : 2 ^ 63 ≤ n
    · rw [if_pos hn]
    · rw [if_neg hn] at h ⊢; exact (Stable.readN n).panic _ ext h

theorem Stable.readTimes {σ α : Type} {r : Rd σ α} (hr : Stable r) (n : Nat) : Stable (readTimes r n) := by
  induction n with
  | zero => exact Stable.pure _
  | succ n ih => exact hr.bind fun _ => ih.bind fun _ => Stable.pure _

theorem Stable.readString (n : Nat) : Stable (readString n) :=
  (Stable.readN n).bind fun _ => Stable.lift _

theorem Stable.readLen (n : Nat) : Stable (readLen n) :=
  (Stable.readBuf n).bind fun _ => Stable.pure _

theorem Stable.readWords (w n : Nat) : Stable (readWords w n) :=
  Stable.readTimes ((Stable.readN w).bind fun _ => Stable.pure _) n

theorem Stable.readVarInt : Stable readVarInt :=
  Stable.readOne.bind fun _ => (Stable.readBuf _).bind fun _ => Stable.lift _

theorem Stable.readVal (t : KTag) : Stable (readVal t) := by
  cases t <;> unfold Codec.readVal <;>
  repeat' first
    | exact Stable.pure _
    | exact Stable.readOne
    | exact Stable.readString _
    | exact Stable.readBuf _
    | exact Stable.readN _
    | exact Stable.readLen _
    | exact Stable.readWords _ _
    | apply Stable.bind
    | intro _

theorem Stable.readVals (ts : List KTag) : Stable (readVals ts) := by
  induction ts with
  | nil => exact Stable.pure _
  | cons t ts ih => exact (Stable.readVal t).bind fun _ => ih.bind fun _ => Stable.pure _

theorem Stable.decodeVals : Stable decodeVals :=
  Stable.readVarInt.bind fun _ => Stable.readVarInt.bind fun _ => (Stable.readBuf _).bind fun _ =>
    (Stable.lift _).bind fun _ => Stable.readVals _

/-! ### tag and data of one value -/

/-- The tag that is read back for a value. -/
def tagOf : KVal → KTag
  | .null => .null
  | .bit b => .bit b
  | .bool b => .bool b
  | .byte _ => .byte
  | .str16 s => .str16 (strBytes s).length
  | .int i => .int (encode i).length
  | .float _ => .float
  | .str256 _ => .str256
  | .double _ => .double
  | .decimal i _ => .decimal (encode i).length
  | .bigStr s => .bigStr (lenBytes (strBytes s).length).length
  | .binary v => .binary (lenBytes v.length).length
  | .binaryArc v => .binary (lenBytes v.length).length
  | .binary8 v => .binary8 (lenBytes v.length).length
  | .binary4 v => .binary4 (lenBytes v.length).length
  | .binary2 v => .binary2 (lenBytes v.length).length
  | .undefined i => .undefined i

theorem readBits3 (n : Nat) (h : 1 ≤ n ∧ n ≤ 8) (rest : List Bool) :
    readBits 3 0 (appendBits (n - 1) 3 ++ rest) = .ok (n - 1, rest) := by
  rw [readBits_appendBits, Nat.mod_eq_of_lt (by omega)]; simp

theorem readBits4 (n : Nat) (h : n < 16) (rest : List Bool) :
    readBits 4 0 (appendBits n 4 ++ rest) = .ok (n, rest) := by
  rw [readBits_appendBits, Nat.mod_eq_of_lt (by omega)]; simp

theorem lenBytes_length (n : Nat) (h : n < 2 ^ 63) : 1 ≤ (lenBytes n).length ∧ (lenBytes n).length ≤ 8 :=
  ⟨encode_length_pos _, encode_length_i64 (inI64_of n h)⟩

theorem lenTag_read (n : Nat) (h : n < 2 ^ 63) (rest : List Bool) :
    readBits 3 0 (lenTag n ++ rest) = .ok ((lenBytes n).length - 1, rest) :=
  readBits3 _ (lenBytes_length n h) rest

theorem bits_str16 : appendBits 0b0101 4 = [false, true, false, true] := rfl
theorem bits_int : appendBits 0b0011 4 = [false, false, true, true] := rfl
theorem bits_decimal : appendBits 0b0100001 7 = [false, true, false, false, false, false, true] := rfl
theorem bits_bigStr : appendBits 0b0010001 7 = [false, false, true, false, false, false, true] := rfl
theorem bits_binary : appendBits 0b00011 5 = [false, false, false, true, true] := rfl
theorem bits_binary8 : appendBits 0b000101 6 = [false, false, false, true, false, true] := rfl
theorem bits_binary4 : appendBits 0b0001001 7 = [false, false, false, true, false, false, true] := rfl
theorem bits_binary2 : appendBits 0b00010001 8 = [false, false, false, true, false, false, false, true] := rfl
theorem bits_undefined : appendBits 0b00001 5 = [false, false, false, false, true] := rfl
theorem bits_one : appendBits 1 1 = [true] := rfl

theorem readTag_tagBits (k : KVal) (h : Valid k) (rest : List Bool) :
    readTag (tagBits k ++ rest) = .ok (tagOf k, rest) := by
  cases k with
  | null => rfl
  | bit b => cases b <;> rfl
  | bool b => cases b <;> rfl
  | byte i => rfl
  | str16 s =>
    simp [tagBits, bits_str16, readTag, readNext1, readBits4 _ h, tagOf]
  | int i =>
    have h1 := encode_length_pos i
    simp [tagBits, bits_int, readTag, readNext1, readBits3 _ ⟨h1, encode_length_i64 h⟩, tagOf]
    omega
  | float f => rfl
  | str256 s => rfl
  | double d => rfl
  | decimal i d =>
    have h1 := encode_length_pos i
    have h2 := encode_length_i128 h
    simp [tagBits, bits_decimal, readTag, readNext1, readBits4 ((encode i).length - 1) (by omega), tagOf]
    omega
  | bigStr s =>
    have h1 := lenBytes_length _ h
    simp [tagBits, bits_bigStr, readTag, readNext1, lenTag_read _ h, tagOf]; omega
  | binary v =>
    have h1 := lenBytes_length _ h
    simp [tagBits, bits_binary, readTag, readNext1, lenTag_read _ h, tagOf]; omega
  | binaryArc v =>
    have h1 := lenBytes_length _ h
    simp [tagBits, bits_binary, readTag, readNext1, lenTag_read _ h, tagOf]; omega
  | binary8 v =>
    have h1 := lenBytes_length _ h
    simp [tagBits, bits_binary8, readTag, readNext1, lenTag_read _ h, tagOf]; omega
  | binary4 v =>
    have h1 := lenBytes_length _ h
    simp [tagBits, bits_binary4, readTag, readNext1, lenTag_read _ h, tagOf]; omega
  | binary2 v =>
    have h1 := lenBytes_length _ h
    simp [tagBits, bits_binary2, readTag, readNext1, lenTag_read _ h, tagOf]; omega
  | undefined i =>
    have h' : i < 8 := h
    simp [tagBits, bits_undefined, appendBits_zero, bits_one, readTag, readNext1, readNext1_replicate, tagOf]
    omega

theorem words_roundtrip {n : Nat} (w : Nat) (hw : n = 8 * w) (v : List (BitVec n)) (rest : Bytes) :
    readWords w v.length (v.flatMap (fun x => leBytes w x.toNat) ++ rest) =
      .ok (v.map BitVec.toNat, rest) := by
  have h := readWords_append w (v.map BitVec.toNat) rest
  rw [List.length_map, List.flatMap_map] at h
  rw [h]
  congr 2
  rw [List.map_map]
  apply List.map_congr_left
  intro x _
  have : x.toNat < 256 ^ w := by
    have := x.isLt
    subst hw
    rwa [show (256 : Nat) = 2 ^ 8 from rfl, ← Nat.pow_mul]
  exact Nat.mod_eq_of_lt this

theorem ofNat_toNat_map {n : Nat} (v : List (BitVec n)) : (v.map BitVec.toNat).map (BitVec.ofNat n) = v := by
  rw [List.map_map]
  conv_rhs => rw [← List.map_id v]
  apply List.map_congr_left
  intro x _
  simp

theorem readVal_dataBytes (k : KVal) (h : Valid k) (rest : Bytes) :
    readVal (tagOf k) (dataBytes k ++ rest) = .ok (norm k, rest) := by
  cases k with
  | null => rfl
  | bit b => rfl
  | bool b => rfl
  | byte i => simp [tagOf, dataBytes, readVal, i8_roundtrip i h, norm]
  | str16 s => simp [tagOf, dataBytes, readVal, readString_append, norm]
  | int i =>
    have := encode_length_i64 h
    simp [tagOf, dataBytes, readVal, readBuf_append (encode i) rest _ rfl (by omega), norm, decode_encode]
  | float f =>
    simp only [tagOf, dataBytes, readVal, Rd.bind_apply]
    rw [readBuf_append _ _ 4 (by simp) (by omega)]
    simp only [Res.bind_ok, Rd.pure_apply, norm, fromBytes_leBytes, List.reverse_reverse]
    rw [show 256 ^ 4 = 2 ^ 32 from rfl, Nat.mod_eq_of_lt f.isLt]; simp
  | str256 s =>
    have h' : (strBytes s).length < 256 := h
    have : (UInt8.ofNat (strBytes s).length).toNat = (strBytes s).length := by simp; omega
    simp [tagOf, dataBytes, readVal, readString_append, norm, this]
  | double d =>
    simp only [tagOf, dataBytes, readVal, Rd.bind_apply]
    rw [readBuf_append _ _ 8 (by simp) (by omega)]
    simp only [Res.bind_ok, Rd.pure_apply, norm, fromBytes_leBytes, List.reverse_reverse]
    rw [show 256 ^ 8 = 2 ^ 64 from rfl, Nat.mod_eq_of_lt d.isLt]; simp
  | decimal i d =>
    have := encode_length_i128 h
    simp [tagOf, dataBytes, readVal, readBuf_append (encode i) (d :: rest) _ rfl (by omega), norm, decode_encode]
  | bigStr s =>
    simp [tagOf, dataBytes, readVal, readLen_append _ _ _ h rfl, readString_append, norm]
  | binary v =>
    simp [tagOf, dataBytes, readVal, readLen_append _ _ _ h rfl, readN_append, norm]
  | binaryArc v =>
    simp [tagOf, dataBytes, readVal, readLen_append _ _ _ h rfl, readN_append, norm]
  | binary8 v =>
    simp [tagOf, dataBytes, readVal, readLen_append _ _ _ h rfl, words_roundtrip 8 rfl, norm, ofNat_toNat_map,
      -List.map_map]
  | binary4 v =>
    simp [tagOf, dataBytes, readVal, readLen_append _ _ _ h rfl, words_roundtrip 4 rfl, norm, ofNat_toNat_map,
      -List.map_map]
  | binary2 v =>
    simp [tagOf, dataBytes, readVal, readLen_append _ _ _ h rfl, words_roundtrip 2 rfl, norm, ofNat_toNat_map,
      -List.map_map]
  | undefined i => rfl

theorem readTimes_tags (ks : List KVal) (h : ∀ k ∈ ks, Valid k) (rest : List Bool) :
    readTimes readTag ks.length (ks.flatMap tagBits ++ rest) = .ok (ks.map tagOf, rest) := by
  induction ks with
  | nil => rfl
  | cons k ks ih =>
    simp only [List.length_cons, readTimes, List.flatMap_cons, List.append_assoc, Rd.bind_apply,
      readTag_tagBits k (h k (by simp)), Res.bind_ok, ih (fun k hk => h k (by simp [hk])), Rd.pure_apply,
      List.map_cons]

theorem readVals_data (ks : List KVal) (h : ∀ k ∈ ks, Valid k) (rest : Bytes) :
    readVals (ks.map tagOf) (ks.flatMap dataBytes ++ rest) = .ok (ks.map norm, rest) := by
  induction ks with
  | nil => rfl
  | cons k ks ih =>
    simp only [List.map_cons, readVals, List.flatMap_cons, List.append_assoc, Rd.bind_apply,
      readVal_dataBytes k (h k (by simp)), Res.bind_ok, ih (fun k hk => h k (by simp [hk])), Rd.pure_apply]

theorem readTags_roundtrip (ks : List KVal) (h : ∀ k ∈ ks, Valid k) :
    readTags ks.length (bitsToBytes (ks.flatMap tagBits)) = .ok (ks.map tagOf) := by
  obtain ⟨n, hn⟩ := bytesToBits_bitsToBytes (ks.flatMap tagBits)
  rw [readTags, hn, readTimes_tags ks h]; rfl

theorem decode_encodeVals (ks : List KVal) (h : ∀ k ∈ ks, Valid k) (hlen : ks.length < 2 ^ 63)
    (out : Bytes) (he : encodeVals ks = .ok out) (hout : out.length < 2 ^ 63) (rest : Bytes) :
    decodeVals (out ++ rest) = .ok (ks.map norm, rest) := by
  unfold encodeVals at he
  split at he
  · simp at he
  · simp only [Res.ok.injEq] at he
    subst he
    have htag : (bitsToBytes (ks.flatMap tagBits)).length < 2 ^ 63 := by
      simp only [List.length_append] at hout; omega
    unfold decodeVals
    simp only [List.append_assoc, Rd.bind_apply]
    rw [write_readVarInt _ (inI64_of _ hlen), Res.bind_ok]
    simp only []
    rw [write_readVarInt _ (inI64_of _ htag), Res.bind_ok]
    simp only []
    rw [asUsize_of _ htag, readBuf_append _ _ _ rfl htag, Res.bind_ok]
    simp only [Rd.lift_apply]
    rw [asUsize_of _ hlen, readTags_roundtrip ks h, Res.map_ok, Res.bind_ok]
    exact readVals_data ks h rest

theorem encodePanics_of_valid (k : KVal) (h : Valid k) : encodePanics k = false := by
  cases k <;> simp_all [Valid, encodePanics]

theorem encodeVals_ok_of_valid (ks : List KVal) (h : ∀ k ∈ ks, Valid k) : ∃ out, encodeVals ks = .ok out := by
  unfold encodeVals
  have : ks.any encodePanics = false := by
    simp only [List.any_eq_false]
    intro k hk
    simp [encodePanics_of_valid k (h k hk)]
  simp [this]

/-! ### panics of `decode` -/

def NoPanic {σ α : Type} (r : Rd σ α) : Prop := ∀ inp, r inp ≠ .panic

theorem NoPanic.pure {σ α : Type} (a : α) : NoPanic (Rd.pure a : Rd σ α) := by intro inp; simp
theorem NoPanic.fail {σ α : Type} : NoPanic (Rd.fail : Rd σ α) := by intro inp; simp
theorem NoPanic.bind {σ α β : Type} {r : Rd σ α} {f : α → Rd σ β} (hr : NoPanic r) (hf : ∀ a, NoPanic (f a)) :
    NoPanic (Rd.bind r f) := by
  intro inp h
  rw [Rd.bind_apply] at h
  cases hc : r inp with
  | ok p => rw [hc] at h; exact hf _ _ h
  | err => rw [hc] at h; simp at h
  | panic => exact hr _ hc
theorem NoPanic.readOne {σ : Type} : NoPanic (readOne : Rd σ σ) := by intro inp; cases inp <;> simp
theorem NoPanic.readN (n : Nat) : NoPanic (readN n) := by
  intro inp; unfold Codec.readN; split <;> simp
theorem NoPanic.readBuf (n : Nat) (h : n < 2 ^ 63) : NoPanic (readBuf n) := by
  intro inp; unfold Codec.readBuf; rw [if_neg (by omega)]; exact NoPanic.readN n inp
theorem NoPanic.readTimes {σ α : Type} {r : Rd σ α} (hr : NoPanic r) (n : Nat) : NoPanic (readTimes r n) := by
  induction n with
  | zero => exact NoPanic.pure _
  | succ n ih => exact hr.bind fun _ => ih.bind fun _ => NoPanic.pure _
theorem NoPanic.readString (n : Nat) : NoPanic (readString n) := by
  apply (NoPanic.readN n).bind
  intro a inp
  cases h : strOfBytes a <;> simp
theorem NoPanic.readLen (n : Nat) (h : n < 2 ^ 63) : NoPanic (readLen n) :=
  (NoPanic.readBuf n h).bind fun _ => NoPanic.pure _
theorem NoPanic.readWords (w n : Nat) : NoPanic (readWords w n) :=
  NoPanic.readTimes ((NoPanic.readN w).bind fun _ => NoPanic.pure _) n
theorem NoPanic.readBits (n acc : Nat) : NoPanic (readBits n acc) := by
  induction n generalizing acc with
  | zero => exact NoPanic.pure _
  | succ n ih => exact NoPanic.readOne.bind fun _ => ih _
theorem NoPanic.readNext1 : NoPanic readNext1 := by
  intro inp
  induction inp with
  | nil => simp [Codec.readNext1]
  | cons b inp ih =>
    cases b with
    | true => simp [Codec.readNext1]
    | false =>
      cases h : Codec.readNext1 inp <;> simp_all [Codec.readNext1]
theorem NoPanic.readTag : NoPanic readTag := by
  unfold Codec.readTag
  apply NoPanic.readNext1.bind
  intro a
  split
  any_goals
    repeat' first
      | exact NoPanic.pure _
      | exact NoPanic.fail
      | exact NoPanic.readOne
      | exact NoPanic.readNext1
      | exact NoPanic.readBits _ _
      | refine NoPanic.bind ?_ (fun _ => ?_)
      | split

/-- The size field of a tag is small. -/
def SmallTag : KTag → Prop
  | .int n | .decimal n | .bigStr n | .binary n | .binary8 n | .binary4 n | .binary2 n => n ≤ 16
  | _ => True

theorem readBits_lt (n acc : Nat) (inp : List Bool) (v : Nat) (rest : List Bool)
    (h : readBits n acc inp = .ok (v, rest)) : v < (acc + 1) * 2 ^ n := by
  induction n generalizing acc inp with
  | zero => simp [readBits] at h; omega
  | succ n ih =>
    cases inp with
    | nil => simp [readBits] at h
    | cons b inp =>
      simp only [readBits, Rd.bind_apply, readOne_cons, Res.bind_ok] at h
      have := ih _ _ h
      rw [Nat.pow_succ]
      have hb : acc * 2 + b.toNat + 1 ≤ (acc + 1) * 2 := by cases b <;> simp <;> omega
      calc v < (acc * 2 + b.toNat + 1) * 2 ^ n := this
        _ ≤ (acc + 1) * 2 * 2 ^ n := Nat.mul_le_mul_right _ hb
        _ = (acc + 1) * (2 ^ n * 2) := by ring

/-- Every result of a reader satisfies a predicate. -/
def Post {σ α : Type} (r : Rd σ α) (P : α → Prop) : Prop := ∀ inp a rest, r inp = .ok (a, rest) → P a

theorem Post.pure {σ α : Type} {P : α → Prop} (a : α) (h : P a) : Post (Rd.pure a : Rd σ α) P := by
  intro inp b rest h'; simp at h'; rw [← h'.1]; exact h
theorem Post.fail {σ α : Type} {P : α → Prop} : Post (Rd.fail : Rd σ α) P := by intro inp b rest h; simp at h
theorem Post.bind {σ α β : Type} {r : Rd σ α} {f : α → Rd σ β} {P : α → Prop} {Q : β → Prop}
    (hr : Post r P) (hf : ∀ a, P a → Post (f a) Q) : Post (Rd.bind r f) Q := by
  intro inp b rest h
  rw [Rd.bind_apply] at h
  obtain ⟨⟨a, mid⟩, h1, h2⟩ := Res.bind_eq_ok.mp h
  exact hf a (hr _ _ _ h1) _ _ _ h2
theorem Post.true {σ α : Type} (r : Rd σ α) : Post r (fun _ => True) := by intro _ _ _ _; trivial
theorem Post.readBits3 : Post (readBits 3) (fun n => n < 8) := by
  intro inp a rest h; have := readBits_lt _ _ _ _ _ h; omega
theorem Post.readBits4 : Post (readBits 4) (fun n => n < 16) := by
  intro inp a rest h; have := readBits_lt _ _ _ _ _ h; omega

theorem readTag_small : Post readTag SmallTag := by
  unfold readTag
  refine Post.bind (Post.true _) (fun _ _ => ?_)
  split
  any_goals
    repeat' first
      | exact Post.fail
      | exact Post.pure _ trivial
      | exact Post.readBits3.bind fun n hn => Post.pure _ (by simp only [SmallTag]; omega)
      | exact Post.readBits4.bind fun n hn => Post.pure _ (by simp only [SmallTag]; omega)
      | exact Post.readBits4.bind fun n hn => Post.pure _ trivial
      | refine Post.bind (Post.true _) (fun _ _ => ?_)
      | split

theorem Post.readTimes {σ α : Type} {r : Rd σ α} {P : α → Prop} (hr : Post r P) (n : Nat) :
    Post (Codec.readTimes r n) (fun l => ∀ a ∈ l, P a) := by
  induction n with
  | zero => exact Post.pure _ (by simp)
  | succ n ih =>
    exact hr.bind fun a ha => ih.bind fun as has => Post.pure _ (by
      intro b hb; rcases List.mem_cons.mp hb with rfl | hb
      · exact ha
      · exact has b hb)

theorem NoPanic.readVal (t : KTag) (h : SmallTag t) : NoPanic (readVal t) := by
  cases t <;> unfold Codec.readVal <;> simp only [SmallTag] at h <;>
  repeat' first
    | exact NoPanic.pure _
    | exact NoPanic.readOne
    | exact NoPanic.readString _
    | exact NoPanic.readBuf _ (by omega)
    | exact NoPanic.readN _
    | exact NoPanic.readLen _ (by omega)
    | exact NoPanic.readWords _ _
    | refine NoPanic.bind ?_ (fun _ => ?_)

theorem NoPanic.readVals (ts : List KTag) (h : ∀ t ∈ ts, SmallTag t) : NoPanic (readVals ts) := by
  induction ts with
  | nil => exact NoPanic.pure _
  | cons t ts ih =>
    exact (NoPanic.readVal t (h t (by simp))).bind fun _ =>
      (ih fun t ht => h t (by simp [ht])).bind fun _ => NoPanic.pure _

theorem readVarInt_panic (inp : Bytes) : readVarInt inp = .panic ↔ BadLength inp := by
  cases inp with
  | nil => simp [readVarInt, BadLength]
  | cons n body =>
    have hn := n.toNat_lt
    simp only [readVarInt, Rd.bind_apply, readOne_cons, Res.bind_ok, readBuf, readN]
    rw [if_neg (by omega)]
    by_cases hl : body.length < n.toNat
    · rw [if_pos hl]
      simp only [Res.bind_err, BadLength, reduceCtorEq, false_iff]
      rintro ⟨m, b, h, h1, h2⟩
      simp at h; obtain ⟨rfl, rfl⟩ := h; omega
    · rw [if_neg hl]
      have htl : (body.take n.toNat).length = n.toNat := by simp; omega
      simp only [Res.bind_ok, Rd.lift_apply, decodeChecked, htl]
      by_cases h8 : n.toNat ≤ 8
      · rw [if_pos h8]
        simp only [Res.map_ok, reduceCtorEq, false_iff]
        rintro ⟨m, b, h, h1, h2⟩
        simp at h; obtain ⟨rfl, rfl⟩ := h; omega
      · rw [if_neg h8]
        simp only [Res.map_panic, true_iff]
        exact ⟨n, body, rfl, by omega, by omega⟩

theorem readVarInt_ok (inp : Bytes) (v : Int) (rest : Bytes) :
    readVarInt inp = .ok (v, rest) ↔ GoodInt inp v rest := by
  constructor
  · intro h
    cases inp with
    | nil => simp [readVarInt] at h
    | cons n body =>
      have hn := n.toNat_lt
      simp only [readVarInt, Rd.bind_apply, readOne_cons, Res.bind_ok, readBuf, readN] at h
      rw [if_neg (by omega)] at h
      by_cases hl : body.length < n.toNat
      · rw [if_pos hl] at h; simp at h
      · rw [if_neg hl] at h
        have htl : (body.take n.toNat).length = n.toNat := by simp; omega
        simp only [Res.bind_ok, Rd.lift_apply, decodeChecked, htl] at h
        by_cases h8 : n.toNat ≤ 8
        · rw [if_pos h8] at h
          simp at h
          exact ⟨n, body.take n.toNat, by rw [← h.2, List.take_append_drop], htl.symm, by omega, h.1.symm⟩
        · rw [if_neg h8] at h; simp at h
  · rintro ⟨n, bs, rfl, h1, h2, rfl⟩
    simp [readVarInt, readBuf_append bs rest _ h1 (by omega), decodeChecked, h2]

theorem asUsize_big (t : Int) (h : InI64 t) : 2 ^ 63 ≤ asUsize t ↔ t < 0 := by
  unfold asUsize InI64 at *; omega

theorem decodeVals_panic (inp : Bytes) : decodeVals inp = .panic ↔ PanicHeader inp := by
  unfold PanicHeader
  rw [← readVarInt_panic]
  simp only [← readVarInt_panic, ← readVarInt_ok]
  simp only [decodeVals, Rd.bind_apply]
  cases h1 : readVarInt inp with
  | err => simp
  | panic => simp
  | ok p =>
    obtain ⟨c, r1⟩ := p
    simp only [Res.bind_ok, reduceCtorEq, Res.ok.injEq, Prod.mk.injEq, false_or]
    cases h2 : readVarInt r1 with
    | err =>
      simp only [Res.bind_err, reduceCtorEq, false_iff]
      rintro ⟨c', r', ⟨rfl, rfl⟩, h⟩
      rw [h2] at h; simp at h
    | panic =>
      simp only [Res.bind_panic, true_iff]
      exact ⟨c, r1, ⟨rfl, rfl⟩, Or.inl h2⟩
    | ok p =>
      obtain ⟨t, r2⟩ := p
      have ht : InI64 t := by
        obtain ⟨n, bs, _, _, hb, rfl⟩ := (readVarInt_ok _ _ _).mp h2
        exact decode_inI64 bs hb
      have hiff : (∃ c' r', (c = c' ∧ r1 = r') ∧ (readVarInt r' = .panic ∨
          ∃ t' r'', readVarInt r' = .ok (t', r'') ∧ t' < 0)) ↔ t < 0 := by
        constructor
        · rintro ⟨c', r', ⟨rfl, rfl⟩, h | ⟨t', r'', h, hlt⟩⟩
          · rw [h2] at h; simp at h
          · rw [h2] at h; simp at h; omega
        · intro hlt
          exact ⟨c, r1, ⟨rfl, rfl⟩, Or.inr ⟨t, r2, h2, hlt⟩⟩
      rw [hiff, ← asUsize_big t ht]
      simp only [Res.bind_ok]
      by_cases hb : 2 ^ 63 ≤ asUsize t
      · rw [readBuf, if_pos hb]; simp only [Res.bind_panic, hb]
      · simp only [hb, iff_false]
        have h3 := NoPanic.readBuf (asUsize t) (by omega) r2
        cases h4 : readBuf (asUsize t) r2 with
        | err => simp
        | panic => exact absurd h4 h3
        | ok p =>
          obtain ⟨tb, r3⟩ := p
          simp only [Res.bind_ok, Rd.lift_apply, readTags]
          have h5 := NoPanic.readTimes NoPanic.readTag (asUsize c) (bytesToBits tb)
          cases h6 : readTimes readTag (asUsize c) (bytesToBits tb) with
          | err => simp
          | panic => exact absurd h6 h5
          | ok p =>
            simp only [Res.map_ok, Res.bind_ok]
            exact NoPanic.readVals _ (Post.readTimes readTag_small _ _ _ _ h6) _

end Verif.Codec
