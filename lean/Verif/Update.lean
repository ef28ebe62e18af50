import Verif.Block
import Verif.AttrConcLemmas

/-!
# Evented attributes that threads read and assign in blocks: model and helpers for C101

User code puts reading an attribute and assigning it, as in `obj.x += 1`, in one block `with lock:`, with one `threading.Lock` per object.
-/
namespace Psygnal.AtC

/-- What a thread does: what happens (`Ev`), that it reads an attribute, or that it finds two values different (`/repo/src/psygnal/_group_descriptor.py:313-318`,
`/repo/src/psygnal/_evented_model.py:632-635`). -/
inductive Act
  | ev (e : Ev)
  | saw (t n x : Nat)
  | differ (t : Nat)
  deriving DecidableEq, Repr

/-- The thread of an event (`/repo/src/psygnal/_group_descriptor.py:306-318`). -/
def Act.thread : Act → Nat
  | .ev (.call t _ _) => t
  | .ev (.wrote t _ _) => t
  | .ev (.told t _ _ _ _) => t
  | .ev (.same t _ _ _ _) => t
  | .saw t _ _ => t
  | .differ t => t

/-- What `step` appends to the log (`/repo/src/psygnal/_group_descriptor.py:387,402,317-318`). -/
def Act.evs : Act → List Ev
  | .ev e => [e]
  | _ => []

/-- What an event does to the attributes (`/repo/src/psygnal/_group_descriptor.py:402`, `/repo/src/psygnal/_evented_model.py:633`). -/
def Act.on (d : Nat → Nat) : Act → Nat → Nat
  | .ev (.wrote _ n v) => fun m => if m = n then v else d m
  | _ => d

/-- `step` of one thread (`/repo/src/psygnal/_group_descriptor.py:306-318,387-402`, `/repo/src/psygnal/_evented_model.py:626-635`). -/
def next (c : Cfg) (d : Nat → Nat) (t : Nat) : Ctl → Option (Act × Ctl)
  | .run .ret => none
  | .run (.set n v k) => some (.ev (.call t n v), .prev n v k)
  | .run (.get n k) => some (.saw t n (d n), .run (k (d n)))
  | .prev n v k => some (.saw t n (d n), .write n v (d n) k)
  | .write n v old k => some (.ev (.wrote t n v), if c.reread then .new n v old k else .test n v v old k)
  | .new n v old k => some (.saw t n (d n), .test n v (d n) old k)
  | .test n v new old k => if c.unchanged new old then some (.ev (.same t n v new old), .run k) else some (.differ t, .emit n v new old k)
  | .emit n v new old k => some (.ev (.told t n v new old), .run k)

/-- It is that of C92. -/
theorem step_next (c : Cfg) (σ : St) (t : Nat) : step c σ t = match next c σ.attr t (σ.thr t) with
    | none => σ
    | some (a, x) => ⟨a.on σ.attr, fun u => if u = t then x else σ.thr u, σ.log ++ a.evs⟩ := by
  unfold step
  cases σ.thr t with
  | run k => cases k <;> simp [next, Act.on, Act.evs, St.go]
  | test n v new old k => simp only [next]; split <;> simp [Act.on, Act.evs, St.go]
  | _ => simp [next, Act.on, Act.evs, St.go]

/-- Has the thread nothing left to do? (`/repo/src/psygnal/_group_descriptor.py:387-402`) -/
def Ctl.rest : Ctl → Bool
  | .run .ret => true
  | _ => false

/-- Objects with evented attributes (`/repo/src/psygnal/_group_descriptor.py:306-318,387-402`, `/repo/src/psygnal/_evented_model.py:626-635`). -/
def sys (c : Cfg) : Blk.Sys (Nat → Nat) Ctl Act := ⟨next c, Act.on, Ctl.rest, Act.thread⟩

theorem sys_rest (c : Cfg) (d : Nat → Nat) (t : Nat) (x : Ctl) (h : (sys c).rest x = true) : (sys c).next d t x = none := by
  cases x with
  | run k => cases k <;> first | rfl | cases h
  | _ => cases h

/-- A block made alone by thread `t`, as one sees it: what happens, and the attributes after it (`/repo/src/psygnal/_group_descriptor.py:306-318,387-402`,
`/repo/src/psygnal/_evented_model.py:626-635`). -/
def alone (c : Cfg) (t : Nat) (d : Nat → Nat) : Code → List Act × (Nat → Nat)
  | .ret => ([], d)
  | .get n k => let q := alone c t d (k (d n)); (.saw t n (d n) :: q.1, q.2)
  | .set n v k =>
    let q := alone c t (fun m => if m = n then v else d m) k
    (.ev (.call t n v) :: .saw t n (d n) :: .ev (.wrote t n v) :: ((if c.reread then [.saw t n v] else []) ++
      (if c.unchanged v (d n) then [.ev (.same t n v v (d n))] else [.differ t, .ev (.told t n v v (d n))]) ++ q.1), q.2)

theorem path_test (c : Cfg) (t : Nat) (d : Nat → Nat) (n v new old : Nat) (k : Code) : Blk.Path (sys c) t d (.test n v new old k)
    (if c.unchanged new old then [.ev (.same t n v new old)] else [.differ t, .ev (.told t n v new old)]) d (.run k) := by
  cases h : c.unchanged new old with
  | true =>
    refine .cons (y := Ctl.run k) ?_ (.nil _ _)
    show next c d t (.test n v new old k) = _
    simp [next, h]
  | false =>
    refine .cons (y := Ctl.emit n v new old k) ?_ (.cons rfl (.nil _ _))
    show next c d t (.test n v new old k) = _
    simp [next, h]

theorem path_reread (c : Cfg) (t : Nat) (d : Nat → Nat) (n v old : Nat) (k : Code) (hd : d n = v) : Blk.Path (sys c) t d
    (if c.reread then .new n v old k else .test n v v old k) (if c.reread then [.saw t n v] else []) d (.test n v v old k) := by
  cases h : c.reread with
  | true =>
    refine .cons (y := Ctl.test n v v old k) ?_ (.nil _ _)
    show next c d t (.new n v old k) = _
    simp [next, hd]
  | false => exact .nil _ _

theorem path_alone (c : Cfg) (t : Nat) (k : Code) : ∀ d, Blk.Path (sys c) t d (.run k) (alone c t d k).1 (alone c t d k).2 (.run .ret) := by
  induction k with
  | ret => exact fun d => .nil _ _
  | get n k ih => exact fun d => .cons rfl (ih _ _)
  | set n v k ih =>
    intro d
    exact .cons rfl (.cons rfl (.cons rfl
      (((path_reread c t (fun m => if m = n then v else d m) n v (d n) k (if_pos rfl)).trans (path_test c t _ n v v (d n) k)).trans (ih _))))

theorem fin_path {c : Cfg} {t : Nat} {d d' : Nat → Nat} {x y : Ctl} {l : List Act} (h : Blk.Path (sys c) t d x l d' y) (hy : Blk.Fin (sys c) t d' y) :
    Blk.Fin (sys c) t d x := by
  obtain ⟨k, d'', z, h1, h2⟩ := hy
  exact ⟨l ++ k, d'', z, h.trans h1, h2⟩

theorem fin_all (c : Cfg) (t : Nat) (d : Nat → Nat) (x : Ctl) : Blk.Fin (sys c) t d x := by
  have hr : ∀ k d, Blk.Fin (sys c) t d (.run k) := fun k d => ⟨_, _, _, path_alone c t k d, rfl⟩
  have ht : ∀ d n v new old k, Blk.Fin (sys c) t d (.test n v new old k) := fun d n v new old k => fin_path (path_test c t d n v new old k) (hr k d)
  have hw : ∀ d n v old k, Blk.Fin (sys c) t d (.write n v old k) := fun d n v old k =>
    .step rfl (fin_path (path_reread c t _ n v old k (if_pos rfl)) (ht _ _ _ _ _ _))
  cases x with
  | run k => exact hr k d
  | prev n v k => exact .step rfl (hw _ _ _ _ _)
  | write n v old k => exact hw _ _ _ _ _
  | new n v old k => exact .step rfl (ht _ _ _ _ _ _)
  | test n v new old k => exact ht _ _ _ _ _ _
  | emit n v new old k => exact .step rfl (hr _ _)

end Psygnal.AtC
