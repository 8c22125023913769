import Verif.Model.Plotly
import Verif.Spec.MakePlot

/-! # A Plotly figure with labelled subplots -/

namespace Verif.Spec

/-- Plotly's number for the subplot at row `r` and column `c`, counted from zero, of a figure with `cols` columns. -/
def subplotNumber (cols r c : ℕ) : ℕ := r * cols + c + 1

end Verif.Spec
