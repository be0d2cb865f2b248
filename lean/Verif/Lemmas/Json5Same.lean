import Verif.Model.Json5
/-!
# Equality of values, to compare results of runs
-/
namespace Verif.Json5
open Source (JVal)

mutual
/-- equality of values -/
def same : JVal → JVal → Bool
  | .null, .null => true
  | .undef, .undef => true
  | .bool a, .bool b => a == b
  | .string a, .string b => a == b
  | .int a, .int b => a == b
  | .double a, .double b => a == b
  | .array a, .array b => sameList a b
  | .map a, .map b => sameMap a b
  | _, _ => false
def sameList : List JVal → List JVal → Bool
  | [], [] => true
  | a :: as, b :: bs => same a b && sameList as bs
  | _, _ => false
def sameMap : List (String × JVal) → List (String × JVal) → Bool
  | [], [] => true
  | (k, a) :: as, (l, b) :: bs => k == l && same a b && sameMap as bs
  | _, _ => false
end

mutual
theorem same_eq : ∀ a b, same a b = true → a = b
  | .null, b, h => by cases b <;> simp_all [same]
  | .undef, b, h => by cases b <;> simp_all [same]
  | .bool _, b, h => by cases b <;> simp_all [same]
  | .string _, b, h => by cases b <;> simp_all [same]
  | .int _, b, h => by cases b <;> simp_all [same]
  | .double _, b, h => by cases b <;> simp_all [same]
  | .array a, .array b, h => by rw [sameList_eq a b (by simpa [same] using h)]
  | .map a, .map b, h => by rw [sameMap_eq a b (by simpa [same] using h)]
  | .array _, .null, h | .array _, .undef, h | .array _, .bool _, h | .array _, .string _, h | .array _, .int _, h
  | .array _, .double _, h | .array _, .map _, h => by simp [same] at h
  | .map _, .null, h | .map _, .undef, h | .map _, .bool _, h | .map _, .string _, h | .map _, .int _, h
  | .map _, .double _, h | .map _, .array _, h => by simp [same] at h
theorem sameList_eq : ∀ a b, sameList a b = true → a = b
  | [], [], _ => rfl
  | a :: as, b :: bs, h => by
    simp only [sameList, Bool.and_eq_true] at h
    rw [same_eq a b h.1, sameList_eq as bs h.2]
  | [], _ :: _, h => by simp [sameList] at h
  | _ :: _, [], h => by simp [sameList] at h
theorem sameMap_eq : ∀ a b, sameMap a b = true → a = b
  | [], [], _ => rfl
  | (k, a) :: as, (l, b) :: bs, h => by
    simp only [sameMap, Bool.and_eq_true, beq_iff_eq] at h
    rw [h.1.1, same_eq a b h.1.2, sameMap_eq as bs h.2]
  | [], _ :: _, h => by simp [sameMap] at h
  | _ :: _, [], h => by simp [sameMap] at h
end

/-- `r` is the value `v` -/
def isOk (v : JVal) : Res JVal → Bool
  | .ok w => same w v
  | _ => false
theorem isOk_eq {v : JVal} {r : Res JVal} (h : isOk v r = true) : r = .ok v := by
  cases r <;> simp_all [isOk]
  exact same_eq _ _ h
/-- `r` is an error -/
def isErr : Res JVal → Bool
  | .err => true
  | _ => false
theorem isErr_eq {r : Res JVal} (h : isErr r = true) : r = .err := by
  cases r <;> simp_all [isErr]

end Verif.Json5
