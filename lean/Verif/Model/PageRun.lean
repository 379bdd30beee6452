import Verif.Model.PageOptions
import Verif.Model.WorkerSession
/-
The worker of the web page (Model/Worker.lean) with sessions that are opened from the messages of the page (Model/PageOptions.lean).
-/
namespace SR

/-- The request and the streams of a message, lib.rs:185-215 as in `wasmNew`.  A text that cannot be read is refused in both
(an empty table is never accepted). -/
def InitMsg.openArgs (d : SOptions ℚ) (streams : Nat → Streams) (m : InitMsg) : OpenArgs ℚ :=
  let o := effective m.options
  let g := streams (o.read (natField maxSafeInteger) "seed" 0)
  let t := (sessionRead o.columns.hasHeaders m.text).getD ([], [])
  ⟨webRequestOf d o m t.1 t.2, g.split, g.seeds, g.order⟩

/-- `WasmSearch` as the page uses it, for the messages under consideration. -/
def pageWasm [Env ℚ] (S : OpTable) (ws : Char → Bool) (T : Texts ℚ) (d : SOptions ℚ) (streams : Nat → Streams) (ok : InitMsg → Prop) :
    Wasm :=
  sessionWasm S ws T (Rq := { m : InitMsg // ok m }) fun m => m.1.openArgs d streams

end SR
