import Verif.Model.StringCompaction
import Verif.Model.UrlString
import Verif.Model.HashDir
/-!
# The tests of the compaction, run on the model

dochy_compaction/src/testing, and the test of the names of folders in dochy_fs. These are tests of the model against the results the authors of
the code expect; they are not proofs.
-/
namespace Verif.Tests
open Codec VarInt StringCompaction UrlString

/-- test_enc_dec.rs:12-67 -/
def samples : List KVal :=
  [.null, .bit false, .bool true, .byte 0, .byte 20, .byte (-128), .str16 "amenbou", .str16 "", .str16 "012345678901234", .int 0, .int (-50), .int 200,
   .int (-200), .int 32767, .int (-32767), .int (-32768), .int 32768, .float 0x3dcccccd, .str256 "01234567890123456", .str256 "", .str256 "01234",
   .double 0x3fb999999999999a] ++
  ([(0, 0), (0, 4), (2 ^ 48, 4), (-2 ^ 48, 4), (2 ^ 64, 0), (-2 ^ 64, 0), (2 ^ 63, 0), (-2 ^ 63, 0), (2 ^ 62, 0), (-2 ^ 62, 0), (-2 ^ 80, 0),
    (2 ^ 79, 0), (-2 ^ 79, 0), (2 ^ 78, 0), (-2 ^ 78, 0), (2 ^ 80, 0)].map fun (x : Int × UInt8) => .decimal x.1 x.2) ++
  [.bigStr (String.ofList (List.replicate 256 'a')), .bigStr "", .binary ((List.range 18).map UInt8.ofNat), .binary (List.replicate 127 127),
   .binary (List.replicate 128 128), .binary (List.replicate 255 129), .binary (List.replicate 256 130), .binary [],
   .binary8 [0, 2 ^ 32, BitVec.allOnes 64], .binary8 [], .binary4 [0, 2 ^ 16, BitVec.allOnes 32], .binary4 [], .binary2 [0, 2 ^ 8, BitVec.allOnes 16],
   .binary2 [], .binary [], .undefined 0, .undefined 7]

-- test_enc_dec.rs:7-74 `test2`
#guard match encodeVals samples with
  | .ok b => (match decodeVals b with | .ok (v, rest) => v = samples && rest = [] | _ => false)
  | _ => false

/-- test_string_compaction.rs:3-43 -/
def strings : List String :=
  ["1", "0", "2", "0.1", "0.001", "127", "-128", "128", "-129", "32767", "32768", "-32767", "-32768", "-9223372036854775808", "9223372036854775807",
   "-9223372036854775809", "9223372036854775808", "18446744073709551615", "18446744073709551616", "-18446744073709551615", "-18446744073709551616", "",
   "a", "abcdeabcdeabcde", "abcdeabcdeabcdef", "0.001", "200.01", "-9999.01", "0.", "-0.", "-00.", "-00.0", "0.0000", "-0.000",
   String.ofList (List.replicate 255 'a'), String.ofList (List.replicate 256 'a')]

-- test_string_compaction.rs:2-61 `test2`
#guard match compressStrings strings with
  | .ok b => (match getUrlString b with
    | .ok url => (match getBytes url with
      | some bytes => (match decompress bytes with
        | .ok (v, rest) => v = strings.map some && rest = []
        | _ => false)
      | none => false)
    | _ => false)
  | _ => false

-- test_hex_file_name.rs:4-15
#guard HashDir.folderNameToHash true (HashDir.hashToFolderName 123456789123456789123456789) = .ok (some 123456789123456789123456789)

end Verif.Tests
