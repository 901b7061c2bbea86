import Verif.Model.TrainCmd
import Verif.Spec.Words
import Verif.Model.Search

/-! # Specification vocabulary for C114: the same document, or model, with other words -/

namespace Wego
variable {F : Type}

/-- the dictionary with every word replaced; the ids and counts stay -/
def Dictionary.renamed (f : Word → Word) (d : Dictionary) : Dictionary :=
  { word2id := d.word2id.map (fun e => (f e.1, e.2)), id2word := d.id2word.map f, cfs := d.cfs, maxid := d.maxid }

/-- the corpus with every word of its dictionary replaced -/
def CorpusState.renamed (f : Word → Word) (c : CorpusState F) : CorpusState F := { c with dic := c.dic.renamed f }

/-- the model with every word replaced; all numbers stay -/
def W2VModel.renamed (f : Word → Word) (M : W2VModel F) : W2VModel F := { M with corpus := M.corpus.renamed f }
def LexModel.renamed (f : Word → Word) (M : LexModel F) : LexModel F := { M with corpus := M.corpus.renamed f }
def GloveModel.renamed (f : Word → Word) (M : GloveModel F) : GloveModel F := { M with corpus := M.corpus.renamed f }

/-- the item, or the entry of a list of neighbours, with its word replaced -/
def Embedding.renamed (f : Word → Word) (e : Embedding F) : Embedding F := { e with word := f e.word }
def Neighbor.renamed (f : Word → Word) (n : Neighbor F) : Neighbor F := { n with word := f n.word }

/-- apply a function to the value of a call that returned one; errors and panics stay -/
def Res.onOk {α β : Type} (g : α → β) (x : Res α) : Res β :=
  match x with
  | .ok a => .ok (g a)
  | .err e => .err e
  | .panic p => .panic p

namespace Spec

/-- `q` is `p` with every word `w` replaced by `f w`; different words stay different, and no word is longer than the reader allows (C07). -/
structure Renamed (f : Word → Word) (p q : Pass) : Prop where
  inj : ∀ v w, f v = f w → v = w
  empty : f [] = []
  words : ∃ ws, IsWords p.text ws ∧ IsWords q.text (ws.map f) ∧ ∀ w ∈ ws, utf8Len w ≤ 65533 ∧ utf8Len (f w) ≤ 65533
  fails : p.fails = q.fails

end Spec
end Wego
