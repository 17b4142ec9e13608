import Verif.Model.Ids
/-! # Running the model, for examples -/
namespace Verif.Bftw

/-- Something that can happen next, if the main thread does everything itself. -/
def auto (e : Env) (s : State) : State :=
  match s.pc with
  | .roots i => if i < e.roots then State.go (s.visitName e i e.buffering) (.roots (i + 1)) else { s.flush e with pc := .top }
  | .top => { s.need (s.file = []) with pc := if s.prefersFiles e then .popFile else .popDir }
  | .popDir =>
    if s.dirq.size = 0 then { s with pc := .popFile }
    else if s.dirq.canPop = true then
      (match s.dirq.pop with
        | (some f, q) => { s.need s.dirq.buffer.isEmpty with dirq := q, file := f, pc := .dir }
        | (none, q) => { s.need s.dirq.buffer.isEmpty with dirq := q, pc := .popFile })
    else s
  | .dir => if s.file ∉ s.dirq.service then { (if true then s.buildPath e none else s) with pc := .read 0 } else s
  | .read k => if k < e.entries s.file then State.go (s.visitName e k e.buffering) (.read (k + 1)) else State.goFlush e (s.gc e (e.broken s.file) true true)
  | .popFile =>
    if s.fileq.size = 0 then { s with pc := .done }
    else if s.fileq.canPop = true then
      (match s.fileq.pop with
        | (some f, q) => { s.need s.fileq.buffer.isEmpty with fileq := q, file := f, pc := .file }
        | (none, q) => { s.need s.fileq.buffer.isEmpty with fileq := q, pc := .done })
    else s
  | .file => if s.file ∉ s.fileq.service then State.goFlush e (s.visitFile e) else s
  | .done => s
  | .stopped => s

theorem auto_reach {e : Env} {s : State} (h : Reach e s) : Reach e (auto e s) := by
  have hb : e.mayBuffer e.buffering := ⟨id, fun h _ => h⟩
  unfold auto
  split
  · split
    · exact h.step (.root _ _ (by assumption) (by assumption) hb)
    · exact h.step (.rooted _ (by assumption) (by assumption))
  · exact h.step (.choose (by assumption))
  · split
    · exact h.step (.noDir (by assumption) (by assumption))
    · split
      · exact h.step (.popDir (by assumption) (by assumption) (by assumption))
      · exact h
  · split
    · exact h.step (.open_ true (by assumption) (by assumption))
    · exact h
  · split
    · exact h.step (.entry _ _ (by assumption) (by assumption) hb)
    · exact h.step (.close _ (by assumption) (by assumption))
  · split
    · exact h.step (.noFile (by assumption) (by assumption))
    · split
      · exact h.step (.popFile (by assumption) (by assumption) (by assumption))
      · exact h
  · split
    · exact h.step (.visit (by assumption) (by assumption))
    · exact h
  · exact h
  · exact h

/-- Until it is done, or `n` times. -/
def autoRun (e : Env) : Nat → State → State
  | 0, s => s
  | n + 1, s => if s.pc = .done then s else autoRun e n (auto e s)

theorem autoRun_reach {e : Env} : ∀ (n : Nat) {s : State}, Reach e s → Reach e (autoRun e n s)
  | 0, _, h => h
  | n + 1, s, h => by
    unfold autoRun
    split
    · exact h
    · exact autoRun_reach n (auto_reach h)

/-- A walk. -/
def walk (e : Env) (n : Nat) : State := autoRun e n (State.init e)

theorem walk_reach (e : Env) (n : Nat) : Reach e (walk e n) := autoRun_reach n .init

/-- A pass. -/
def passEnd (e : Env) (post : Bool) (st : Ids) (buf : Bytes) (n : Nat) : State := walk (Ids.env e st buf (fun _ _ => 255) post) n

def passIds (e : Env) (post : Bool) (st : Ids) (buf : Bytes) (n : Nat) : Ids := Ids.after e st (passEnd e post st buf n).trace

theorem pass_run {e : Env} {post : Bool} {st : Ids} {buf : Bytes} (n : Nat) (h : (passEnd e post st buf n).pc = .done) :
    Pass e post st buf (passIds e post st buf n) (passEnd e post st buf n).path :=
  ⟨_, _, walk_reach _ n, h, rfl, rfl⟩

end Verif.Bftw
