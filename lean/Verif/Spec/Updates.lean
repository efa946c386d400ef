import Verif.Model.Updates

/-! # What it means that several updates keep out of each other's way (C104) -/

namespace Verif

/-- The process writes the archive. -/
def UpdProc.Downloads : UpdProc → Prop
  | .downloading _ _ => True
  | _ => False

/-- The process has the archive open to unpack it. -/
def UpdProc.ReadsArchive : UpdProc → Prop
  | .opened _ => True
  | .unpacking _ _ _ _ _ => True
  | _ => False

/-- The process writes the text. -/
def UpdProc.Unpacks : UpdProc → Prop
  | .unpacking _ _ _ _ _ => True
  | _ => False

/-- The process reads the text. -/
def UpdProc.Parses : UpdProc → Prop
  | .parsing _ _ => True
  | _ => False

/-- The process writes the index. -/
def UpdProc.Saves : UpdProc → Prop
  | .saving _ _ _ _ => True
  | _ => False

/-- The process has not begun, or its `Update` has returned. -/
def UpdProc.Rests : UpdProc → Prop
  | .start => True
  | .done => True
  | .upToDate => True
  | .failed => True
  | .dead => True
  | _ => False

/-- No process writes a file that another one has open. -/
def UpdState.Apart (s : UpdState) : Prop :=
  ∀ i j, i ≠ j →
    ((s.proc i).Downloads → ¬ (s.proc j).Downloads ∧ ¬ (s.proc j).ReadsArchive) ∧
    ((s.proc i).Unpacks → ¬ (s.proc j).Unpacks ∧ ¬ (s.proc j).Parses) ∧
    ((s.proc i).Saves → ¬ (s.proc j).Saves)

/-- No call fails and no process dies. -/
def UpdEv.Works : UpdEv → Prop
  | .step _ => True
  | .ahead _ => True
  | .fail _ => False
  | .die _ => False

/-- The schedule is free of faults; nobody writes a file that another one has open; and a process told to recompile begins
only when all others rest. -/
structure InTurn (cfg : UpdCfg) (files : FName → Option Str) (sched : List UpdEv) : Prop where
  works : ∀ e ∈ sched, e.Works
  apart : ∀ pre, pre <+: sched → ((UpdState.start files).run cfg pre).Apart
  forced : ∀ pre i, pre ++ [.step i] <+: sched → cfg.force i = true →
    ((UpdState.start files).run cfg pre).proc i = .start → ∀ j, (((UpdState.start files).run cfg pre).proc j).Rests

/-- The processes run one after another: two that have begun and not returned are the same. -/
def OneByOne (cfg : UpdCfg) (files : FName → Option Str) (sched : List UpdEv) : Prop :=
  ∀ pre, pre <+: sched → ∀ i j, ¬ (((UpdState.start files).run cfg pre).proc i).Rests →
    ¬ (((UpdState.start files).run cfg pre).proc j).Rests → i = j

/-- The server's archive unpacks to `text`, which compiles to `index`; what a part of an archive unpacks to is a part of what the
archive unpacks to. -/
structure Serveable (cfg : UpdCfg) (text index : Str) : Prop where
  mono : ∀ a b, a <+: b → (cfg.env.bunzip a).1 <+: (cfg.env.bunzip b).1
  unpacks : cfg.env.bunzip cfg.body = (text, true)
  compiles : compileText cfg.env text = some (index, true)

end Verif
