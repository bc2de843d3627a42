import Lean
open Lean Elab
unsafe def main (args : List String) : IO UInt32 := do
  let [fname, mod, out] := args | return 2
  initSearchPath (← findSysroot)
  enableInitializersExecution
  let input ← IO.FS.readFile fname
  let inputCtx := Parser.mkInputContext input fname
  let (header, parserState, messages) ← Parser.parseHeader inputCtx
  let (env, messages) ← processHeader header {} messages inputCtx
  let env := env.setMainModule mod.toName
  let opts : Options := maxHeartbeats.set {} 400000
  let opts := opts.setBool `Elab.async false
  let s ← IO.processCommands inputCtx parserState (Command.mkState env messages opts)
  for m in s.commandState.messages.toList do
    if m.severity == .error then IO.println s!"error: {fname}:{m.pos.line}"
  let env := s.commandState.env
  -- theorems of this module depending on sorryAx
  if (mod.splitOn ".").contains "Props" then
    for (n, c) in env.constants.map₂.toList do
      if c.isTheorem && !n.isInternal then
        let (ax, _) ← (collectAxioms n : CoreM (Array Name)).toIO { fileName := "", fileMap := default } { env := env }
        if ax.contains ("sor" ++ "ryAx").toName then IO.println s!"tainted: {n}"
  writeModule env out
  return 0
