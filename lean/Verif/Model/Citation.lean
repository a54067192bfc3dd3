/-
Citations: /repo/src/jaxrts/literature.py, `Model.citation` (models.py 102-141), `HNCPotential.citation`
(hnc_potentials.py 315-354) and `PlasmaState.citation` (plasmastate.py 175-214).

Text is a list of lines, which the code joins with newlines.  How pybtex prints an entry is not modelled:
it is a parameter (`Bib`).
-/
import Mathlib.Data.List.Basic

set_option autoImplicit false

namespace Verif.Citation

/-- An entry of `cite_keys`, models.py 60-66: one key or a list of keys, with a comment or without. -/
structure Ref where
  keys : List String
  comment : Option String
  deriving DecidableEq

/-- The argument `style`. -/
inductive Style
  | plain
  | cite
  | bibtex
  deriving DecidableEq

/-- The file `literature.bib`: its keys, the lines which pybtex prints for a list of keys, and the lines of an
entry in the format of bibtex, with a note (which replaces a note of the entry). -/
structure Bib where
  keys : List String
  plain : List String → List String
  bibtex : String → Option String → List String

/-- `s.strip() == ""`, literature.py 57, plasmastate.py 202 and 209. -/
def blank (l : String) : Bool := l.toList.all Char.isWhitespace

/-- literature.py 28-58 `get_formatted_ref_string`, 61-73 `get_cite_ref_string` and 76-99
`get_bibtex_ref_string`: `none` is an exception, for a key which is not in the file.  Blank lines of the first
are removed (line 57).  Entries are taken to be printed with at least one line. -/
def refString (bib : Bib) (style : Style) (r : Ref) : Option (List String) :=
  match style with
  | .plain =>
    if r.keys.all (bib.keys.contains ·) then
      some ((r.comment.toList ++ bib.plain r.keys).filter fun l => !blank l) else none
  | .cite =>
    let out := "\\cite{" ++ ",".intercalate r.keys ++ "}"
    some [match r.comment with
      | some c => c ++ "~" ++ out
      | none => out]
  | .bibtex =>
    if r.keys.all (bib.keys.contains ·) then some (r.keys.flatMap fun k => bib.bibtex k r.comment) else none

/-- models.py 133-140 and hnc_potentials.py 346-353: the comment of an entry with the one of the caller. -/
def withComment (comment : Option String) (r : Ref) : Ref :=
  { r with comment := match r.comment with
      | none => comment
      | some c => some (match comment with
          | some c' => c' ++ ". " ++ c
          | none => c) }

/-- models.py 102-141 and hnc_potentials.py 315-354 `citation`. -/
def modelCitation (bib : Bib) (style : Style) (comment : Option String) : List Ref → Option (List String)
  | [] => some []
  | r :: rs => do
    let a ← refString bib style (withComment comment r)
    let b ← modelCitation bib style comment rs
    return a ++ b

/-- plasmastate.py 199-210: the loop over the models. -/
def parts (bib : Bib) (style : Style) : List (String × List Ref) → Option (List String)
  | [] => some []
  | (key, refs) :: ms => do
    let t ← modelCitation bib style (if style = .bibtex then some key else none) refs
    let rest ← parts bib style ms
    if t.all blank then return rest
    else if style = .bibtex then return t ++ rest
    else return ["", key] ++ t ++ rest

/-- plasmastate.py 175-214 `PlasmaState.citation` for a state with the models `ms`. -/
def citation (bib : Bib) (style : Style) (ms : List (String × List Ref)) : Option (List String) :=
  (parts bib style ms).map fun l => if style = .bibtex then l else l.drop 1

/-- The attribute `cite_keys` of all classes of models.py and hnc_potentials.py, in the order of the files;
inherited ones are repeated.  For the classes where it is a property (models.py 1662, 1900, 2159, 2422: with
`RPA_rewrite`; 2641, 2833: with `r_k < 0`) the second list is added if the condition holds, the third one if it
does not. -/
def classTable : List (String × List Ref × List Ref × List Ref) := [
  ("Model", [], [], []),
  ("ScatteringModel", [], [], []),
  ("Neglect", [], [], []),
  ("IonFeatModel", [], [], []),
  ("ArkhipovIonFeat", [⟨["Arkhipov.1998"], none⟩, ⟨["Arkhipov.2000"], none⟩, ⟨["Gregori.2006b"], none⟩], [], []),
  ("Gregori2003IonFeat", [⟨["Gregori.2003"], none⟩, ⟨["Gregori.2006b"], none⟩], [], []),
  ("Gregori2006IonFeat", [⟨["Gregori.2006"], none⟩, ⟨["Gregori.2006b"], none⟩], [], []),
  ("CHSIonFeat", [⟨["Gregori.2007", "Singh.1983"], some "Formulation of model"⟩, ⟨["Gregori.2006"], some "Effective temperatures"⟩, ⟨["Gregori.2006b"], some "Extension to multicomponent system"⟩], [], []),
  ("FixedSii", [], [], []),
  ("OnePotentialHNCIonFeat", [⟨["Wunsch.2011"], some "Basis for the implementation of the HNC scheme."⟩], [], []),
  ("ThreePotentialHNCIonFeat", [⟨["Schwarz.2007"], some "Description of two-comenponent, two-temperature HNC"⟩, ⟨["Wunsch.2011"], some "Basis for the implementation of the HNC scheme."⟩], [], []),
  ("PeakCollection", [], [], []),
  ("DebyeWallerSolid", [⟨["Gregori.2006"], some "Formulation of the Model."⟩, ⟨["Murphy.2008"], some "Definition of the Debye Waller Factor."⟩], [], []),
  ("FreeFreeModel", [], [], []),
  ("QCSalpeterApproximation", [⟨["Salpeter.1960"], some "Basal model."⟩, ⟨["Gregori.2003"], some "Quantum correction to the original model."⟩], [], []),
  ("RPA", [], [], []),
  ("RPA_DandreaFit", [⟨["Dandrea.1986"], none⟩], [], []),
  ("BornMermin_Full", [⟨["Mermin.1970"], some "Mermin Approximation."⟩, ⟨["Schorner.2023", "Reinholz.2000"], some "Electron-ion collision frequency."⟩], [⟨["Chapman.2015"], some "RPA integral."⟩], [⟨["Schorner.2023"], some "RPA integral."⟩]),
  ("BornMermin", [⟨["Mermin.1970"], some "Mermin Approximation."⟩, ⟨["Schorner.2023", "Reinholz.2000"], some "Electron-ion collision frequency."⟩, ⟨["Chapman.2016"], some "Interpolation over few collision frequencies."⟩], [⟨["Chapman.2015"], some "RPA integral."⟩], [⟨["Schorner.2023"], some "RPA integral."⟩]),
  ("BornMermin_Fit", [⟨["Mermin.1970"], some "Mermin Approximation."⟩, ⟨["Schorner.2023", "Reinholz.2000"], some "Electron-ion collision frequency."⟩, ⟨["Chapman.2016"], some "Interpolation over few collision frequencies."⟩, ⟨["Dandrea.1986"], some "Analytical Fit for RPA"⟩], [⟨["Chapman.2015"], some "RPA integral."⟩], [⟨["Schorner.2023"], some "RPA integral."⟩]),
  ("BornMermin_Fortmann", [⟨["Mermin.1970"], some "Mermin Approximation."⟩, ⟨["Schorner.2023", "Reinholz.2000"], some "Electron-ion collision frequency."⟩, ⟨["Fortmann.2010"], some "LFC in Born-Mernin Formalism."⟩, ⟨["Dandrea.1986"], some "Analytical Fit for RPA"⟩], [⟨["Chapman.2015"], some "RPA integral."⟩], [⟨["Schorner.2023"], some "RPA integral."⟩]),
  ("SchumacherImpulse", [⟨["Schumacher.1975"], none⟩, ⟨["Holm.1989"], some "Corrects contribution for n equals 1 and 2."⟩, ⟨["Gu.2008"], some "Edge positions."⟩], [⟨["Gregori.2004"], some "Scaling factor r_k."⟩], []),
  ("SchumacherImpulseColdEdges", [⟨["Schumacher.1975"], none⟩, ⟨["Holm.1989"], some "Corrects contribution for n equals 1 and 2."⟩], [⟨["Gregori.2004"], some "Scaling factor r_k."⟩], []),
  ("SchumacherImpulseFitRk", [⟨["Schumacher.1975"], none⟩, ⟨["Holm.1989"], some "Corrects contribution for n equals 1 and 2."⟩, ⟨["Gu.2008"], some "Edge positions."⟩, ⟨["Dornheim.2024"], some "Intensity normalization due to f-sum rule"⟩], [], []),
  ("DetailedBalance", [⟨["Bohme.2023"], none⟩], [], []),
  ("PaulingFormFactors", [⟨["Pauling.1932"], none⟩], [], []),
  ("FormFactorLowering", [⟨["Doppner.2023"], none⟩], [], []),
  ("IchimaruChemPotential", [⟨["Ichimaru.2018"], none⟩], [], []),
  ("SommerfeldChemPotential", [⟨["Cowan.2019"], none⟩], [], []),
  ("NonDegenerateElectronChemPotential", [], [], []),
  ("DegenerateElectronChemPotential", [], [], []),
  ("ConstantChemPotential", [], [], []),
  ("ConstantDebyeTemp", [], [], []),
  ("BohmStaver", [⟨["Gregori.2006"], none⟩], [], []),
  ("IPDModel", [], [], []),
  ("ConstantIPD", [], [], []),
  ("DebyeHueckelIPD", [⟨["Debye.1923"], none⟩, ⟨["Crowley.2014"], none⟩], [], []),
  ("StewartPyattPrestonIPD", [⟨["Stewart.1966"], none⟩, ⟨["Preston.2013"], none⟩, ⟨["Crowley.2014"], none⟩], [], []),
  ("StewartPyattIPD", [⟨["Stewart.1966"], none⟩, ⟨["Ropke.2019"], none⟩, ⟨["Calisti.2015"], none⟩], [], []),
  ("IonSphereIPD", [⟨["Rozsnyai.1972"], none⟩, ⟨["Zimmermann.1980"], none⟩, ⟨["Crowley.2014"], none⟩], [], []),
  ("EckerKroellIPD", [⟨["EckerKroell.1963"], none⟩, ⟨["Crowley.2014"], none⟩, ⟨["Ciricosta.2012"], none⟩, ⟨["Preston.2013"], none⟩], [], []),
  ("PauliBlockingIPD", [⟨["Ropke.2019"], none⟩], [], []),
  ("IPDSum", [], [], []),
  ("DebyeHueckelScreeningLength", [⟨["Debye.1923"], none⟩, ⟨["Gericke.2010"], none⟩], [], []),
  ("Gericke2010ScreeningLength", [⟨["Gericke.2010"], none⟩], [], []),
  ("ArbitraryDegeneracyScreeningLength", [⟨["Baggott.2017"], none⟩, ⟨["Ropke.2019"], none⟩], [], []),
  ("ConstantScreeningLength", [], [], []),
  ("LinearResponseScreeningGericke2010", [⟨["Gericke.2010"], none⟩, ⟨["Wunsch.2011"], none⟩], [], []),
  ("GregoriCHSScreening", [⟨["Gregori.2006b"], none⟩, ⟨["Gregori.2007"], none⟩], [], []),
  ("FiniteWavelengthScreening", [⟨["Chapman.2015b"], none⟩, ⟨["Dandrea.1986"], some "Analytical Fit for RPA"⟩], [], []),
  ("DebyeHueckelScreening", [⟨["Chapman.2015b"], none⟩], [], []),
  ("LinearResponseScreening", [⟨["Gericke.2010"], none⟩, ⟨["Wunsch.2011"], none⟩], [], []),
  ("Gregori2004Screening", [⟨["Gregori.2004"], none⟩], [], []),
  ("SLFCGeldart1966", [⟨["Geldart.1966"], none⟩], [], []),
  ("SLFCUtsumi1982", [⟨["UtsumiIchimaru.1982"], none⟩], [], []),
  ("SLFCFarid1993", [⟨["Farid.1993"], none⟩], [], []),
  ("ESLFCDornheim2021", [⟨["Dornheim.2021"], none⟩], [], []),
  ("SLFCInterpFortmann2010", [⟨["Fortmann.2010"], some "Interpolation."⟩, ⟨["Farid.1993", "Geldart.1966"], some "Limits."⟩], [], []),
  ("SLFCInterpGregori2007", [⟨["Gregori.2007"], some "Interpolation."⟩, ⟨["UtsumiIchimaru.1982", "Geldart.1966"], some "Limits."⟩], [], []),
  ("LFCConstant", [], [], []),
  ("Sum_Sii", [], [], []),
  ("AverageAtom_Sii", [⟨["Wunsch.2011"], some "Basis for the implementation of the HNC scheme."⟩], [], []),
  ("BM_V_eiSModel", [], [], []),
  ("DebyeHueckel_BM_V", [], [], []),
  ("FiniteWavelength_BM_V", [⟨["Dandrea.1986"], none⟩], [], []),
  ("EdgeModel", [], [], []),
  ("NoEdge", [], [], []),
  ("NonNegative", [], [], []),
  ("Heaviside", [], [], []),
  ("Fermi", [⟨["Mattern.2013"], none⟩], [], []),
  ("HNCPotential", [], [], []),
  ("PotentialSum", [], [], []),
  ("ScaledPotential", [], [], []),
  ("CoulombPotential", [], [], []),
  ("DebyeHueckelPotential", [⟨["Wunsch.2008"], none⟩], [], []),
  ("KelbgPotential", [⟨["Kelbg.1963"], none⟩, ⟨["Wunsch.2011"], none⟩, ⟨["Schwarz.2007"], some "Definition of lambda_ab"⟩], [], []),
  ("KlimontovichKraeftPotential", [⟨["Klimontovich.1974"], none⟩, ⟨["Wunsch.2011"], none⟩, ⟨["Schwarz.2007"], none⟩], [], []),
  ("DeutschPotential", [⟨["Kelbg.1963"], none⟩, ⟨["Wunsch.2011"], none⟩, ⟨["Schwarz.2007"], some "Definition of lambda_ab"⟩], [], []),
  ("EmptyCorePotential", [⟨["Gericke.2010"], none⟩], [], []),
  ("YukawaShortRangeRepulsion", [⟨["Wunsch.2009"], none⟩, ⟨["Fletcher.2015"], none⟩], [], []),
  ("SoftCorePotential", [⟨["Gericke.2010"], none⟩], [], []),
  ("PauliClassicalMap", [⟨["Bredow.2015"], none⟩, ⟨["DharmaWardana.2000"], none⟩, ⟨["DharmaWardana.2012"], none⟩], [], []),
  ("SpinSeparatedEEExchange", [⟨["Wunsch.2008"], none⟩, ⟨["Huang.1987"], none⟩, ⟨["Deutsch.1982"], none⟩], [], []),
  ("SpinAveragedEEExchange", [⟨["Wunsch.2008"], none⟩], [], [])]

/-- The keys of /repo/src/jaxrts/literature.bib. -/
def bibKeys : List String := [
  "Antia.1993", "Arista.1984", "Arkhipov.1998", "Arkhipov.2000", "Baggott.2017", "Bohme.2023",
  "Bredow.2013", "Bredow.2015", "Bredow.2017", "Calisti.2015", "Chapman.2015", "Chapman.2015b",
  "Chapman.2016", "Chihara.1987", "Chihara.2000", "Ciricosta.2012", "Cowan.2019", "Crowley.2013",
  "Crowley.2014", "Dandrea.1986", "Debye.1923", "Deutsch.1977", "Deutsch.1982", "DharmaWardana.2000",
  "DharmaWardana.2012", "Doppner.2023", "Dornheim.2019", "Dornheim.2020", "Dornheim.2021",
  "Dornheim.2022", "Dornheim.2024", "Dornheim.2024b", "EckerKroell.1963", "Farid.1993", "flax.2020",
  "Fletcher.2015", "FLYCHK", "Fortmann.2010", "Fukushima.2015", "Gawne.2024", "Geldart.1966",
  "Gericke.2010", "Glenzer.2009", "Gregori.2003", "Gregori.2004", "Gregori.2006", "Gregori.2006b",
  "Gregori.2007", "Gu.2008", "Holm.1989", "Huang.1987", "Hubbard.1957", "Ichimaru.2018", "jax",
  "jaxrts2026", "Kelbg.1963", "Klimontovich.1974", "Kramers.1925", "Kramers.1927", "Kraus.2012",
  "Kraus.2018", "Kraus.2019", "Kraus.2025", "Kremp.2005", "Kronig.1926", "Kubo.1966", "Kumar.2021",
  "Lin.2017", "Lodders.2010", "Lutgert.2024", "MacDonald.2021", "Mattern.2013", "McKerns.2010",
  "McKerns.2011", "Mermin.1970", "More.1985", "Murphy.2008", "Pain.2022", "Pauling.1932", "Press.1994",
  "Preston.2013", "Pun.2017", "Redmer.2005", "Reinholz.2000", "Ropke.2019", "Rozsnyai.1972",
  "Salpeter.1960", "Schorner.2022", "Schorner.2023", "Schumacher.1975", "Schumacher.2025",
  "Schuster.2020", "Schwarz.2007", "Seuferling.1989", "Shaffer.2017", "Singh.1983", "Stanton.2017",
  "Stewart.1966", "Thompson.2022", "UtsumiIchimaru.1982", "Waseda.1980", "Wunsch.2008", "Wunsch.2009",
  "Wunsch.2011", "Wunsch.2011b", "Zeng.2022", "Zimmermann.1980"]

/-- `cite_keys` of an object of a class. -/
def citeKeys (cls : String) (flag : Bool) : Option (List Ref) :=
  (classTable.lookup cls).map fun t => t.1 ++ if flag then t.2.1 else t.2.2

end Verif.Citation
