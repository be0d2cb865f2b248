import Verif.Lemmas.ApplyItems
/-! # C37: loading with worker threads -/
namespace Verif.ApplyItems

section
variable {S B R : Type}

/-- **C37** (whole outcome).  When the diffs of the readable files are well-formed, loading with worker threads does exactly
what sequential loading does, whatever the order in which the workers finish: the same object or error, and the callback is
given the same objects in the same order.  Files may be missing and diffs may fail to apply. -/
theorem C37_same_outcome (F : Fns S B R) (files : List (Option B)) (s : S) (hp : Preparable F files) (out : List S × Res S)
    (h : Mt F files s out) : out = applySt F files s := by
  cases h with
  | run arr harr _ =>
    obtain ⟨D, h1, h2, h3⟩ := sent_eq F (readable files) hp
    obtain ⟨g1, g2, g3⟩ := h3 0
    rw [receive_spec F .err D files.length (by rw [h1]; exact readable_length files) arr files.length 0 (fun _ => none) s
      (by simp) rfl (fun x hx => by simpa using (g1 x (harr.mem_iff.1 hx)).2)
      (fun j hj => Or.inr (Or.inr ((harr.map _).mem_iff.2 (by simpa using g3 j hj))))
      (by rw [harr.length_eq, g2])]
    rw [applySt_eq F files D h1 h2 s]
    rfl
  | runAbort arr harr hn => exact absurd hp hn
  | abort tr hn => exact absurd hp hn

/-- **C37.**  Whatever the files hold and in whatever order the workers finish: loading with worker threads gives an object
exactly when sequential loading gives that object. -/
theorem C37_same_object (F : Fns S B R) (files : List (Option B)) (s : S) (out : List S × Res S) (h : Mt F files s out) (x : S) :
    out.2 = .ok x ↔ (applySt F files s).2 = .ok x := by
  by_cases hp : Preparable F files
  · rw [C37_same_outcome F files s hp out h]
  · have hst : (applySt F files s).2 ≠ .ok x := fun he => hp (applySt_preparable F files s x he)
    refine ⟨fun he => ?_, fun he => absurd he hst⟩
    exfalso
    cases h with
    | run arr harr hn => exact hp hn
    | abort tr hn => cases he
    | runAbort arr harr hn =>
      have h1 := receive_count F _ .panic (by simp) arr _ _ _ _ _ he
      have h2 := sent_length F (readable files) 0
      have h3 := readable_length files
      rw [harr.length_eq] at h1
      exact hp (h2.2 (by omega))

/-- There is a run of the workers for every list of files. -/
theorem C37_some_run (F : Fns S B R) (files : List (Option B)) (s : S) : ∃ out, Mt F files s out := by
  by_cases hp : Preparable F files
  · exact ⟨_, .run _ (List.Perm.refl _) hp⟩
  · exact ⟨_, .runAbort _ (List.Perm.refl _) hp⟩

end

/-- Objects are lists of numbers; 99 cannot be prepared, 7 cannot be applied. -/
def exFns : Fns (List Nat) Nat Nat :=
  ⟨fun b => if b = 99 then .err else .ok (b + 1), fun s r => if r = 8 then .err else .ok (s ++ [r])⟩

/-- Three files, the workers finish in the order 2, 0, 1. -/
example : receive exFns 4 .err 3 [(2, 31), (0, 11), (1, 21)] 0 (fun _ => none) [] = ([[11], [11, 21], [11, 21, 31]], .ok [11, 21, 31]) ∧
    [(2, 31), (0, 11), (1, 21)].Perm (sent exFns (readable [some 10, some 20, some 30]) 0) ∧
    applySt exFns [some 10, some 20, some 30] [] = ([[11], [11, 21], [11, 21, 31]], .ok [11, 21, 31]) := by decide
example : Preparable exFns [some 10, some 20, none, some 30] := by
  intro b hb
  simp only [readable, List.mem_cons, List.not_mem_nil, or_false] at hb
  rcases hb with rfl | rfl
  · exact ⟨11, rfl⟩
  · exact ⟨21, rfl⟩
/-- A missing file, and a diff that cannot be applied. -/
example : receive exFns 5 .err 4 [(1, 21), (0, 11)] 0 (fun _ => none) [] = ([[11], [11, 21]], .err) ∧
    applySt exFns [some 10, some 20, none, some 30] [] = ([[11], [11, 21]], .err) ∧
    receive exFns 4 .err 3 [(2, 31), (1, 8), (0, 11)] 0 (fun _ => none) [] = ([[11]], .err) ∧
    applySt exFns [some 10, some 7, some 30] [] = ([[11]], .err) := by decide

/-- What differs: a diff that cannot be prepared is an error of sequential loading but ends the process that loads with
workers (`unwrap` in a `rayon` job). -/
theorem C37_damaged_diff_aborts :
    (applySt exFns [some 10, some 99] []).2 = .err ∧ ∀ out, Mt exFns [some 10, some 99] [] out → out.2 = .panic := by
  refine ⟨by decide, fun out h => ?_⟩
  cases h with
  | run arr harr hp =>
    obtain ⟨r, hr⟩ := hp 99 (by simp [readable])
    cases hr
  | abort tr hn => rfl
  | runAbort arr harr hn =>
    have hs : sent exFns (readable [some 10, some 99]) 0 = [(0, 11)] := by decide
    rw [hs] at harr
    have : arr = [(0, 11)] := List.perm_singleton.1 harr
    subst this
    decide

end Verif.ApplyItems
