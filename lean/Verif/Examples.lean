import Verif.Spec

/-!
# A small concrete setting

Used to show that the hypotheses of the property theorems are met by concrete, non-trivial cases.
(Not part of the model.)
-/
namespace Psygnal.Ex

/-- A plain signal with one positional argument (`Signal(int)`). -/
def plain (m : Mode) : Decl :=
  { mode := m, sig := buildSig 1, checkNargs := true, isRelay := false, children := [], parent := none }

/-- Signals 0–9 immediate, 10–19 latest-only, 20–29 queued; 30 is a relay with members 31 and 32. -/
def decl (s : SigId) : Decl :=
  if s < 10 then plain .immediate
  else if s < 20 then plain .latest
  else if s < 30 then plain .queued
  else if s = 30 then { plain .immediate with isRelay := true, children := [31, 32] }
  else if s ≤ 32 then { plain .immediate with parent := some 30 }
  else plain .immediate

/-- Every callable takes one positional argument (bound methods: after `self`). -/
def env (body : Base → Args → Prog) : Env :=
  { decl := decl, body := body, pysig := fun _ => some (buildSig 1) }

/-- Callbacks that do nothing. -/
def quiet : Env := env fun _ _ => .ret

/-- A program: make these API calls, ignoring results and errors. -/
def seq : List Act → Prog
  | [] => .ret
  | a :: as => .api a fun _ => seq as

/-- `sig.connect(f)` with a priority. -/
def conn (s : SigId) (b : Base) (p : Int := 0) : Act := .connect s ⟨b, []⟩ { priority := p }

/-- `sig.emit(n)`. -/
def emit (s : SigId) (n : Int) : Act := .emit s [.atom n] true

theorem Only.seq_mem {Q : Act → Prop} : ∀ {l : List Act}, (∀ a ∈ l, Q a) → (seq l).Only Q
  | [], _ => trivial
  | a :: as, h => ⟨h a (by simp), fun _ => Only.seq_mem fun b hb => h b (by simp [hb])⟩

/-- Running a list of API calls from the initial world. -/
def after (env : Env) (fuel : Nat) (l : List Act) : Option World :=
  (exec env fuel (.prog (seq l)) .init).map (·.1)

theorem reach {env : Env} {Q : Act → Prop} {n : Nat} {l : List Act} {w : World}
    (hq : ∀ a ∈ l, Q a) (h : after env n l = some w) : Reachable env Q w := by
  unfold after at h
  rw [Option.map_eq_some_iff] at h
  obtain ⟨⟨w', r⟩, h, rfl⟩ := h
  exact .step 0 _ (Only.seq_mem hq) .init ⟨n, h⟩

theorem groups (body : Base → Args → Prog) : Groups (env body) where
  mode r h := by
    simp only [env, decl, plain] at h ⊢
    repeat' split at h
    all_goals simp_all
  nodup r := by
    simp only [env, decl, plain]
    repeat' split
    all_goals simp
  plain r c h hc := by
    simp only [env, decl, plain] at h hc ⊢
    repeat' split at h
    all_goals simp_all
    rcases hc with rfl | rfl <;> simp
  parent r c := by
    have h1 : ((decl r).isRelay = true ∧ c ∈ (decl r).children) ↔ r = 30 ∧ (c = 31 ∨ c = 32) := by
      unfold decl plain
      repeat' split
      all_goals simp
      all_goals grind
    have h2 : (decl c).parent = some r ↔ r = 30 ∧ (c = 31 ∨ c = 32) := by
      unfold decl plain
      repeat' split
      all_goals simp
      all_goals grind
    exact h2.trans h1.symm

end Psygnal.Ex
