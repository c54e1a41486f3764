import Verif.Lemmas.HumHash
import Verif.Lemmas.PyDict
import Verif.Lemmas.PyNum
import Verif.Lemmas.PyStr
import Verif.Lemmas.Recip
import Verif.Lemmas.Spine
import Verif.Lemmas.Tac
import Verif.Model.Accidental
import Verif.Model.Arpeggios
import Verif.Model.Barlines
import Verif.Model.ChordText
import Verif.Model.ClefMeter
import Verif.Model.Content
import Verif.Model.Dates
import Verif.Model.Decoration
import Verif.Model.DurSplit
import Verif.Model.DynPlace
import Verif.Model.Events
import Verif.Model.ExportRecip
import Verif.Model.FixBeams
import Verif.Model.FixDur
import Verif.Model.Grid
import Verif.Model.Harte
import Verif.Model.HumArpeggio
import Verif.Model.HumBeams
import Verif.Model.HumChords
import Verif.Model.HumDynam
import Verif.Model.HumHairpin
import Verif.Model.HumHarm
import Verif.Model.HumHash
import Verif.Model.HumLyrics
import Verif.Model.HumMeasures
import Verif.Model.HumMeta
import Verif.Model.HumOttava
import Verif.Model.HumParts
import Verif.Model.HumReh
import Verif.Model.HumSlurs
import Verif.Model.HumTempo
import Verif.Model.HumText
import Verif.Model.HumTies
import Verif.Model.HumTuplets
import Verif.Model.IsoDates
import Verif.Model.KernArtic
import Verif.Model.KernLook
import Verif.Model.KernOrn
import Verif.Model.KernPitch
import Verif.Model.KeySig
import Verif.Model.Line
import Verif.Model.LinkedParams
import Verif.Model.Manip
import Verif.Model.Marks
import Verif.Model.Measure
import Verif.Model.MeiAttrs
import Verif.Model.MeiBarlines
import Verif.Model.MeiBeams
import Verif.Model.MeiEnds
import Verif.Model.MeiFermatas
import Verif.Model.MeiLayer
import Verif.Model.MeiNesting
import Verif.Model.MeiNote
import Verif.Model.MeiOrnaments
import Verif.Model.MeiPedals
import Verif.Model.MeiSection
import Verif.Model.MeiSlurs
import Verif.Model.MeiSpanEnds
import Verif.Model.MeiStaffGrp
import Verif.Model.MeiTies
import Verif.Model.MeiTree
import Verif.Model.MeiTstamp
import Verif.Model.MeiTuplets
import Verif.Model.Names
import Verif.Model.NoteTexts
import Verif.Model.NullHoles
import Verif.Model.NullTokens
import Verif.Model.OutputName
import Verif.Model.ParamSet
import Verif.Model.Pending
import Verif.Model.Pitch
import Verif.Model.PyDict
import Verif.Model.PyNum
import Verif.Model.PyStr
import Verif.Model.ReadDecoration
import Verif.Model.Recip
import Verif.Model.RestVoice
import Verif.Model.Rhythm
import Verif.Model.Sections
import Verif.Model.SigChanges
import Verif.Model.SigExport
import Verif.Model.Signifier
import Verif.Model.Slur
import Verif.Model.Spine
import Verif.Model.SpineDurs
import Verif.Model.SpineGrid
import Verif.Model.Strands
import Verif.Model.Text
import Verif.Model.Tie
import Verif.Model.Token
import Verif.Model.Tremolo
import Verif.Props.Accidental
import Verif.Props.Arpeggios
import Verif.Props.Barlines
import Verif.Props.ChordText
import Verif.Props.ClefMeter
import Verif.Props.Content
import Verif.Props.Dates
import Verif.Props.Decoration
import Verif.Props.DurSplit
import Verif.Props.DynPlace
import Verif.Props.Events
import Verif.Props.ExportRecip
import Verif.Props.FixBeams
import Verif.Props.FixDur
import Verif.Props.Floating
import Verif.Props.Grid
import Verif.Props.Harte
import Verif.Props.HarteText
import Verif.Props.HumArpeggio
import Verif.Props.HumBeams
import Verif.Props.HumChords
import Verif.Props.HumDynam
import Verif.Props.HumHairpin
import Verif.Props.HumHarm
import Verif.Props.HumHash
import Verif.Props.HumLyrics
import Verif.Props.HumMeasures
import Verif.Props.HumMeta
import Verif.Props.HumOttava
import Verif.Props.HumParts
import Verif.Props.HumReh
import Verif.Props.HumSlurs
import Verif.Props.HumTempo
import Verif.Props.HumText
import Verif.Props.HumTies
import Verif.Props.HumTuplets
import Verif.Props.IsoDates
import Verif.Props.KernArtic
import Verif.Props.KernLook
import Verif.Props.KernOrn
import Verif.Props.KernPitch
import Verif.Props.KeySig
import Verif.Props.Line
import Verif.Props.LineTimes
import Verif.Props.LinkedParams
import Verif.Props.Links
import Verif.Props.Manip
import Verif.Props.Marks
import Verif.Props.Measure
import Verif.Props.MeiAttrs
import Verif.Props.MeiBarlines
import Verif.Props.MeiBeams
import Verif.Props.MeiEnds
import Verif.Props.MeiFermatas
import Verif.Props.MeiLayer
import Verif.Props.MeiNesting
import Verif.Props.MeiNote
import Verif.Props.MeiOrnaments
import Verif.Props.MeiPedals
import Verif.Props.MeiSection
import Verif.Props.MeiSlurs
import Verif.Props.MeiSpanEnds
import Verif.Props.MeiStaffGrp
import Verif.Props.MeiText
import Verif.Props.MeiTies
import Verif.Props.MeiTree
import Verif.Props.MeiTstamp
import Verif.Props.MeiTuplets
import Verif.Props.Names
import Verif.Props.NoteTexts
import Verif.Props.NullHoles
import Verif.Props.NullLines
import Verif.Props.NullTokens
import Verif.Props.OutputName
import Verif.Props.Pending
import Verif.Props.Pitch
import Verif.Props.ReadDecoration
import Verif.Props.Recip
import Verif.Props.RestVoice
import Verif.Props.Rhythm
import Verif.Props.RhythmFile
import Verif.Props.Sections
import Verif.Props.SigChanges
import Verif.Props.SigExport
import Verif.Props.Signifier
import Verif.Props.Slur
import Verif.Props.SlurRecord
import Verif.Props.Spine
import Verif.Props.SpineDurs
import Verif.Props.SpineGrid
import Verif.Props.Strands
import Verif.Props.Text
import Verif.Props.TextExport
import Verif.Props.Tie
import Verif.Props.Token
import Verif.Props.Tremolo
import Verif.Props.TremoloLines
import Verif.Props.TremoloText
import Verif.Spec.Accidental
import Verif.Spec.Arpeggios
import Verif.Spec.Barlines
import Verif.Spec.ChordText
import Verif.Spec.Content
import Verif.Spec.Dates
import Verif.Spec.Decoration
import Verif.Spec.DurSplit
import Verif.Spec.Events
import Verif.Spec.FixBeams
import Verif.Spec.Grid
import Verif.Spec.HumHash
import Verif.Spec.IsoDates
import Verif.Spec.KeySig
import Verif.Spec.Line
import Verif.Spec.LinkedParams
import Verif.Spec.Manip
import Verif.Spec.Marks
import Verif.Spec.Measure
import Verif.Spec.MeiEnds
import Verif.Spec.MeiFermatas
import Verif.Spec.MeiOrnaments
import Verif.Spec.MeiPedals
import Verif.Spec.MeiSlurs
import Verif.Spec.MeiTree
import Verif.Spec.Names
import Verif.Spec.NoteTexts
import Verif.Spec.NullHoles
import Verif.Spec.NullTokens
import Verif.Spec.OutputName
import Verif.Spec.Pending
import Verif.Spec.Pitch
import Verif.Spec.ReadDecoration
import Verif.Spec.Recip
import Verif.Spec.RestVoice
import Verif.Spec.Rhythm
import Verif.Spec.Sections
import Verif.Spec.Signifier
import Verif.Spec.Slur
import Verif.Spec.Spine
import Verif.Spec.SpineDurs
import Verif.Spec.SpineGrid
import Verif.Spec.Tie
import Verif.Spec.Token
import Verif.Spec.Tremolo
