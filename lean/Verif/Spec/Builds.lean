import Verif.Model.Programs
/- Specification for C119: debug and release builds. -/
namespace Atsc

/-- Something that depends on the build ends the same way (the same result or the same panic) in both, or the debug build panics on an arithmetic overflow. -/
def SameBuilds {α : Type} (f : Profile → Except Panic α) : Prop := f .debug = f .release ∨ f .debug = .error .overflow

/-- The command as built with the profile `p`. -/
def Command.build (p : Profile) : Command → Command
  | .atsc env node ts => .atsc { env with p := p } node ts
  | .csv env isFile ts => .csv { env with p := p } isFile ts
  | .wav hound _ ts => .wav hound p ts

end Atsc
