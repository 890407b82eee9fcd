import Verif.Timer.Model

/-!
# Specification of the timers

No handles and no vectors: samples are filed directly under tags, a timer is a tag plus the time it
was started (if it is running).  A handle is the position of a tag in the order of first use.
-/

namespace Kalibr.Timer

structure Spec where
  /-- tags in order of first use -/
  tags : List String
  /-- durations recorded under each tag since its last reset -/
  samples : String → List ℚ
  /-- timers created so far: `none` when destroyed, else tag and start time if running -/
  objs : List (Option (String × Option ℚ))

namespace Spec

def init : Spec := ⟨[], fun _ => [], []⟩

/-- First use of a tag appends it. -/
def use (a : Spec) (tag : String) : Spec := if tag ∈ a.tags then a else { a with tags := a.tags ++ [tag] }

def new (a : Spec) (tag : String) (stopped : Bool) (now : ℚ) : Out Nat × Spec :=
  (.ok a.objs.length, { a with objs := a.objs ++ [some (tag, if stopped then none else some now)] })

def record (a : Spec) (tag : String) (dt : ℚ) : Spec :=
  { a with samples := fun t => if t = tag then a.samples t ++ [dt] else a.samples t }

def clear (a : Spec) (tag : String) : Spec :=
  { a with samples := fun t => if t = tag then [] else a.samples t }

def step (a : Spec) : Op → Out Nat × Spec
  | .handle tag => (.ok ((a.use tag).tags.idxOf tag), a.use tag)
  | .newTag tag stopped now => (a.use tag).new tag stopped now
  | .newHandle h stopped now =>
    match a.tags[h]? with
    | none => (.raise, a)
    | some tag => a.new tag stopped now
  | .start id now =>
    match a.objs[id]? with
    | some (some (tag, none)) => (.ok 0, { a with objs := a.objs.set id (some (tag, some now)) })
    | some (some (_, some _)) => (.raise, a)
    | _ => (.ub, a)
  | .stop id now =>
    match a.objs[id]? with
    | some (some (tag, some t0)) =>
      (.ok 0, { a.record tag (now - t0) with objs := a.objs.set id (some (tag, none)) })
    | some (some (_, none)) => (.raise, a)
    | _ => (.ub, a)
  | .destroy id now =>
    match a.objs[id]? with
    | some (some (tag, some t0)) =>
      (.ok 0, { a.record tag (now - t0) with objs := a.objs.set id none })
    | some (some (_, none)) => (.ok 0, { a with objs := a.objs.set id none })
    | _ => (.ub, a)
  | .numSamples h =>
    match a.tags[h]? with
    | none => (.raise, a)
    | some tag => (.ok (a.samples tag).length, a)
  | .numSamplesTag tag => (.ok (a.samples tag).length, a.use tag)
  | .reset h =>
    match a.tags[h]? with
    | none => (.raise, a)
    | some tag => (.ok 0, a.clear tag)
  | .resetTag tag => (.ok 0, (a.use tag).clear tag)

def runFrom (a : Spec) : List Op → List (Out Nat) × Spec
  | [] => ([], a)
  | op :: ops =>
    let r := a.step op
    let t := runFrom r.2 ops
    (r.1 :: t.1, t.2)

def run : List Op → List (Out Nat) × Spec := runFrom init

end Spec

end Kalibr.Timer
