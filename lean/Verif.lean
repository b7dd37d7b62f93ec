import Verif.Props.Rect
import Verif.Props.CaseMap
import Verif.Props.StyleText
import Verif.Props.QName
import Verif.Props.MediaQuery
import Verif.Props.Style
import Verif.Props.CssText
import Verif.Props.Decl
import Verif.Props.Shorthand
import Verif.Props.MediaList
import Verif.Props.TokenList
import Verif.Props.Dataset
import Verif.Props.CssEscape
import Verif.Props.Length
import Verif.Props.Viewport
import Verif.Props.Aspect
import Verif.Props.Matrix
import Verif.Props.MatrixInit
import Verif.Props.MatrixHeap
import Verif.Props.MatrixParts
import Verif.Model.Aspect
import Verif.Model.CaseMap
import Verif.Model.CssEscape
import Verif.Model.CssText
import Verif.Model.Dataset
import Verif.Model.Decl
import Verif.Model.Formatter
import Verif.Model.Length
import Verif.Model.Matrix
import Verif.Model.MediaList
import Verif.Model.MediaQuery
import Verif.Model.NumText
import Verif.Model.Py
import Verif.Model.PyDict
import Verif.Model.PyList
import Verif.Model.PyStr
import Verif.Model.QName
import Verif.Model.Rect
import Verif.Model.SeqSplit
import Verif.Model.Shorthand
import Verif.Model.Style
import Verif.Model.StyleText
import Verif.Model.TokenList
import Verif.Model.Transform
import Verif.Model.TransformText
import Verif.Model.Viewport
import Verif.Lemmas.NumText
import Verif.Lemmas.PyDict
import Verif.Lemmas.PyStr
import Verif.Lemmas.SeqSplit
import Verif.Props.Formatter
import Verif.Props.Transform
import Verif.Props.TransformText
import Verif.Model.Path
import Verif.Model.PathText
import Verif.Props.PathText
import Verif.Model.PathGeom
import Verif.Props.Arc
import Verif.Props.PathGeom
import Verif.Model.Bezier
import Verif.Props.Bezier
import Verif.Model.PathLength
import Verif.Props.EllipseLength
import Verif.Props.PathLength
import Verif.Model.Ancestors
import Verif.Props.Ancestors
import Verif.Model.Content
import Verif.Model.DocChildren
import Verif.Props.Content
import Verif.Props.DocChildren
import Verif.Model.AttrMap
import Verif.Props.AttrMap
import Verif.Model.NumType
import Verif.Model.UnitValue
import Verif.Props.NumType
import Verif.Props.UnitValue
import Verif.Model.SumValue
import Verif.Props.SumValue
import Verif.Model.CachedText
import Verif.Model.Unparsed
import Verif.Props.CachedText
import Verif.Props.Unparsed
import Verif.Model.Url
import Verif.Model.UrlSplit
import Verif.Props.Url
import Verif.Props.UrlHref
import Verif.Props.UrlPath
import Verif.Props.UrlRef
import Verif.Props.UrlText
import Verif.Model.FontStyle
import Verif.Model.FontText
import Verif.Props.FontStyle
import Verif.Props.FontText
import Verif.Props.FontVariant
import Verif.Model.Shapes
import Verif.Props.Shapes
import Verif.Props.ArcCurves
import Verif.Model.Elements
import Verif.Props.ElementBox
import Verif.Props.ShapeBox
import Verif.Props.ShapeLength
import Verif.Model.MathText
import Verif.Props.MathText
import Verif.Model.MathPrint
import Verif.Props.MathPrint
import Verif.Model.ViewportSize
import Verif.Props.ViewportSize
import Verif.Model.TextContent
import Verif.Props.TextContent
import Verif.Model.SearchParams
import Verif.Props.SearchParams
import Verif.Model.Points
import Verif.Props.Points
import Verif.Model.Components
import Verif.Props.Components
import Verif.Model.LengthText
import Verif.Props.LengthText
import Verif.Model.TextChars
import Verif.Props.TextChars
import Verif.Model.InlineStyle
import Verif.Props.InlineStyle
import Verif.Model.MediaParse
import Verif.Model.Regex
import Verif.Lemmas.Regex
import Verif.Props.MediaParse
import Verif.Model.OwnerDoc
import Verif.Props.OwnerDoc
import Verif.Model.FontMatch
import Verif.Props.FontMatch
import Verif.Model.Lookup
import Verif.Props.Lookup
import Verif.Model.UsePath
import Verif.Props.UsePath
import Verif.Model.CssTree
import Verif.Props.CssTree
import Verif.Model.GlyphRun
import Verif.Props.GlyphRun
import Verif.Model.FontShorthand
import Verif.Props.FontShorthand
import Verif.Model.Syntax
import Verif.Props.Syntax
import Verif.Model.StyleMap
import Verif.Props.StyleMap
import Verif.Model.StyleParse
import Verif.Props.StyleParse
import Verif.Model.DataUrl
import Verif.Props.DataUrl
import Verif.Model.FTMatrix
import Verif.Props.FTMatrix
import Verif.Model.Features
import Verif.Props.Features
import Verif.Model.MaskBorder
import Verif.Props.MaskBorder
import Verif.Model.InlineShorthand
import Verif.Props.InlineShorthand
import Verif.Model.Navigation
import Verif.Props.Navigation
import Verif.Model.Ligature
import Verif.Props.Ligature
import Verif.Model.BidiText
import Verif.Props.BidiText
import Verif.Model.TextRuns
import Verif.Props.TextRuns
import Verif.Model.StyleSheets
import Verif.Props.StyleSheets
import Verif.Model.MediaFeatures
import Verif.Props.MediaFeatures
import Verif.Model.FeatureValues
import Verif.Props.FeatureValues
import Verif.Model.TreeWalk
import Verif.Props.TreeWalk
import Verif.Model.TransformSeq
import Verif.Props.TransformSeq
import Verif.Model.AttrLists
import Verif.Props.AttrLists
import Verif.Model.Mask
import Verif.Props.Mask
import Verif.Model.FontMeasure
import Verif.Props.FontMeasure
import Verif.Model.CompStyle
import Verif.Props.CompStyle
import Verif.Model.Validity
import Verif.Props.Validity
import Verif.Model.PathData
import Verif.Props.PathData
import Verif.Model.Factory
import Verif.Props.Factory
import Verif.Model.Registry
import Verif.Props.Registry
import Verif.Model.DomError
import Verif.Props.DomError
import Verif.Model.EllipsePoint
import Verif.Props.EllipsePoint
