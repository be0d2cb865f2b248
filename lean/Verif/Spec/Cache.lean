import Verif.Model.Cache
/-! # Specification of sequences of history operations with the phase cache -/
namespace Verif.History
open VarInt FileName FileHistory Phase

section
variable {S : Type}

/-- States reachable with the cache (compare `Reach`). A new process starts with an empty cache. -/
inductive ReachC (o : Opts) (ops : Ops S) : St → Cache S → List (Props × S) → Prop
  | start (dir : Dir) (hn : (dir.map (·.1)).Nodup) (hf : ∀ e ∈ dir, analyze e.1 = .ok none) : ReachC o ops ⟨dir, none⟩ [] []
  | save (shift : Shift) (st st' : St) (c c' : Cache S) (log : List (Props × S)) (rid : Nat) (s : S) (p : Props)
      (hr : ReachC o ops st c log) (hl : log.length < 10 ^ 8 - 1)
      (hs : saveC o shift ops st c rid none s = (c', st', .ok p)) : ReachC o ops st' c' ((p, s) :: log)
  | fail (shift : Shift) (st st' : St) (c c' : Cache S) (log : List (Props × S)) (rid : Nat) (s : S) (r : Res Props)
      (hr : ReachC o ops st c log) (hl : log.length < 10 ^ 8 - 1)
      (hs : saveC o shift ops st c rid none s = (c', st', r)) (hf : ∀ p, r ≠ .ok p) : ReachC o ops st' c' log
  | load (st : St) (c : Cache S) (log : List (Props × S)) (h : FileHistory.History) (p : Props) (rid : Nat)
      (hr : ReachC o ops st c log) (hh : st.history = .ok h) (hp : p ∈ h.listFiles) :
      ReachC o ops (loadFileC o ops st c h p rid).1 c log
  | list (st : St) (c : Cache S) (dir : Dir) (log : List (Props × S)) (hr : ReachC o ops st c log) (hp : dir.Perm st.dir) :
      ReachC o ops ⟨dir, st.base⟩ c log
  | restart (st : St) (c : Cache S) (log : List (Props × S)) (hr : ReachC o ops st c log) : ReachC o ops ⟨st.dir, none⟩ [] log

end
end Verif.History
