import Verif.Spec.FileServer
import Verif.Spec.EndToEnd

/-! What the example program is to answer. -/

namespace Verif

/-- The file that is meant by a path: where it ends with a slash, the file `index.html` there. -/
def Meant (p path : Bytes) : Prop := (b!"/" <:+ p ∧ path = p ++ b!"index.html") ∨ (¬ b!"/" <:+ p ∧ path = p)

/-- The response for a path: the file that is meant, with its length and its type, or the message that there is none. -/
def FileAnswer (root : Node) (p : Bytes) (r : Response) : Prop :=
  ∃ path, Meant p path ∧
    ((∃ t, root.readFile path = some r.body ∧ TypeOf path t ∧ r.status = ⟨200, b!"OK"⟩ ∧
        r.headers = [(Header.contentLength, [natDec r.body.length]), (Header.contentType, [t])]) ∨
      root.readFile path = none ∧ r = ⟨⟨404, b!"NOT FOUND"⟩, [(Header.contentLength, [b!"0"])], []⟩)

/-- The response of the program to a request, by its URI: the secret message; under one address the files in one directory, and under any other those in another. -/
inductive SiteAnswer (root : Node) : Bytes → Response → Prop
  | secret : SiteAnswer root b!"/secret/message/path" ⟨⟨200, b!"OK"⟩, [(Header.contentLength, [b!"29"])], b!"You found the secret message!"⟩
  | site {rest : Bytes} {r : Response} : FileAnswer root (b!"/Users/Ben/Code/middletonSite/" ++ rest) r → SiteAnswer root (b!"/my/middleton/website/" ++ rest) r
  | app {rest : Bytes} {r : Response} : b!"/" ++ rest ≠ b!"/secret/message/path" → ¬ b!"/my/middleton/website/" <+: b!"/" ++ rest →
      FileAnswer root (b!"/Users/Ben/Code/ReactTetris/tetris-app/build/" ++ rest) r → SiteAnswer root (b!"/" ++ rest) r

end Verif
