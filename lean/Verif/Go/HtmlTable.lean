import Verif.Go.Html

/-!
# The tables of package `html`

The named character references of HTML 5 (`html/entity.go`, maps `entity` and `entity2`).  As there, `nGt;` and `nLt;` are left out: what
they stand for takes more bytes than they do.
-/

namespace Verif.Go

open Verif.Spec

/-- `html/entity.go`, `entity`, part 1. -/
def entityPart1 : List (Bytes × Nat) := [
  (b!"AElig", 0xC6), (b!"AElig;", 0xC6), (b!"AMP", 0x26), (b!"AMP;", 0x26), (b!"Aacute", 0xC1), (b!"Aacute;", 0xC1), (b!"Abreve;", 0x102),
  (b!"Acirc", 0xC2), (b!"Acirc;", 0xC2), (b!"Acy;", 0x410), (b!"Afr;", 0x1D504), (b!"Agrave", 0xC0), (b!"Agrave;", 0xC0),
  (b!"Alpha;", 0x391), (b!"Amacr;", 0x100), (b!"And;", 0x2A53), (b!"Aogon;", 0x104), (b!"Aopf;", 0x1D538), (b!"ApplyFunction;", 0x2061),
  (b!"Aring", 0xC5), (b!"Aring;", 0xC5), (b!"Ascr;", 0x1D49C), (b!"Assign;", 0x2254), (b!"Atilde", 0xC3), (b!"Atilde;", 0xC3),
  (b!"Auml", 0xC4), (b!"Auml;", 0xC4), (b!"Backslash;", 0x2216), (b!"Barv;", 0x2AE7), (b!"Barwed;", 0x2306), (b!"Bcy;", 0x411),
  (b!"Because;", 0x2235), (b!"Bernoullis;", 0x212C), (b!"Beta;", 0x392), (b!"Bfr;", 0x1D505), (b!"Bopf;", 0x1D539), (b!"Breve;", 0x2D8),
  (b!"Bscr;", 0x212C), (b!"Bumpeq;", 0x224E), (b!"CHcy;", 0x427), (b!"COPY", 0xA9), (b!"COPY;", 0xA9), (b!"Cacute;", 0x106),
  (b!"Cap;", 0x22D2), (b!"CapitalDifferentialD;", 0x2145), (b!"Cayleys;", 0x212D), (b!"Ccaron;", 0x10C), (b!"Ccedil", 0xC7),
  (b!"Ccedil;", 0xC7), (b!"Ccirc;", 0x108), (b!"Cconint;", 0x2230), (b!"Cdot;", 0x10A), (b!"Cedilla;", 0xB8), (b!"CenterDot;", 0xB7),
  (b!"Cfr;", 0x212D), (b!"Chi;", 0x3A7), (b!"CircleDot;", 0x2299), (b!"CircleMinus;", 0x2296), (b!"CirclePlus;", 0x2295),
  (b!"CircleTimes;", 0x2297), (b!"ClockwiseContourIntegral;", 0x2232), (b!"CloseCurlyDoubleQuote;", 0x201D),
  (b!"CloseCurlyQuote;", 0x2019), (b!"Colon;", 0x2237), (b!"Colone;", 0x2A74), (b!"Congruent;", 0x2261), (b!"Conint;", 0x222F),
  (b!"ContourIntegral;", 0x222E), (b!"Copf;", 0x2102), (b!"Coproduct;", 0x2210), (b!"CounterClockwiseContourIntegral;", 0x2233),
  (b!"Cross;", 0x2A2F), (b!"Cscr;", 0x1D49E), (b!"Cup;", 0x22D3), (b!"CupCap;", 0x224D), (b!"DD;", 0x2145), (b!"DDotrahd;", 0x2911),
  (b!"DJcy;", 0x402), (b!"DScy;", 0x405), (b!"DZcy;", 0x40F), (b!"Dagger;", 0x2021), (b!"Darr;", 0x21A1), (b!"Dashv;", 0x2AE4),
  (b!"Dcaron;", 0x10E), (b!"Dcy;", 0x414), (b!"Del;", 0x2207), (b!"Delta;", 0x394), (b!"Dfr;", 0x1D507), (b!"DiacriticalAcute;", 0xB4),
  (b!"DiacriticalDot;", 0x2D9), (b!"DiacriticalDoubleAcute;", 0x2DD), (b!"DiacriticalGrave;", 0x60), (b!"DiacriticalTilde;", 0x2DC),
  (b!"Diamond;", 0x22C4), (b!"DifferentialD;", 0x2146), (b!"Dopf;", 0x1D53B), (b!"Dot;", 0xA8), (b!"DotDot;", 0x20DC),
  (b!"DotEqual;", 0x2250), (b!"DoubleContourIntegral;", 0x222F), (b!"DoubleDot;", 0xA8), (b!"DoubleDownArrow;", 0x21D3),
  (b!"DoubleLeftArrow;", 0x21D0), (b!"DoubleLeftRightArrow;", 0x21D4), (b!"DoubleLeftTee;", 0x2AE4), (b!"DoubleLongLeftArrow;", 0x27F8),
  (b!"DoubleLongLeftRightArrow;", 0x27FA), (b!"DoubleLongRightArrow;", 0x27F9), (b!"DoubleRightArrow;", 0x21D2),
  (b!"DoubleRightTee;", 0x22A8), (b!"DoubleUpArrow;", 0x21D1), (b!"DoubleUpDownArrow;", 0x21D5), (b!"DoubleVerticalBar;", 0x2225),
  (b!"DownArrow;", 0x2193), (b!"DownArrowBar;", 0x2913), (b!"DownArrowUpArrow;", 0x21F5), (b!"DownBreve;", 0x311),
  (b!"DownLeftRightVector;", 0x2950), (b!"DownLeftTeeVector;", 0x295E), (b!"DownLeftVector;", 0x21BD), (b!"DownLeftVectorBar;", 0x2956),
  (b!"DownRightTeeVector;", 0x295F), (b!"DownRightVector;", 0x21C1), (b!"DownRightVectorBar;", 0x2957), (b!"DownTee;", 0x22A4),
  (b!"DownTeeArrow;", 0x21A7), (b!"Downarrow;", 0x21D3), (b!"Dscr;", 0x1D49F), (b!"Dstrok;", 0x110), (b!"ENG;", 0x14A), (b!"ETH", 0xD0),
  (b!"ETH;", 0xD0), (b!"Eacute", 0xC9), (b!"Eacute;", 0xC9), (b!"Ecaron;", 0x11A), (b!"Ecirc", 0xCA), (b!"Ecirc;", 0xCA),
  (b!"Ecy;", 0x42D), (b!"Edot;", 0x116), (b!"Efr;", 0x1D508), (b!"Egrave", 0xC8), (b!"Egrave;", 0xC8), (b!"Element;", 0x2208),
  (b!"Emacr;", 0x112), (b!"EmptySmallSquare;", 0x25FB), (b!"EmptyVerySmallSquare;", 0x25AB), (b!"Eogon;", 0x118), (b!"Eopf;", 0x1D53C),
  (b!"Epsilon;", 0x395), (b!"Equal;", 0x2A75), (b!"EqualTilde;", 0x2242), (b!"Equilibrium;", 0x21CC), (b!"Escr;", 0x2130),
  (b!"Esim;", 0x2A73), (b!"Eta;", 0x397), (b!"Euml", 0xCB), (b!"Euml;", 0xCB), (b!"Exists;", 0x2203), (b!"ExponentialE;", 0x2147),
  (b!"Fcy;", 0x424), (b!"Ffr;", 0x1D509), (b!"FilledSmallSquare;", 0x25FC), (b!"FilledVerySmallSquare;", 0x25AA), (b!"Fopf;", 0x1D53D),
  (b!"ForAll;", 0x2200), (b!"Fouriertrf;", 0x2131), (b!"Fscr;", 0x2131), (b!"GJcy;", 0x403), (b!"GT", 0x3E), (b!"GT;", 0x3E),
  (b!"Gamma;", 0x393), (b!"Gammad;", 0x3DC), (b!"Gbreve;", 0x11E), (b!"Gcedil;", 0x122), (b!"Gcirc;", 0x11C), (b!"Gcy;", 0x413),
  (b!"Gdot;", 0x120), (b!"Gfr;", 0x1D50A), (b!"Gg;", 0x22D9), (b!"Gopf;", 0x1D53E), (b!"GreaterEqual;", 0x2265),
  (b!"GreaterEqualLess;", 0x22DB), (b!"GreaterFullEqual;", 0x2267), (b!"GreaterGreater;", 0x2AA2), (b!"GreaterLess;", 0x2277),
  (b!"GreaterSlantEqual;", 0x2A7E), (b!"GreaterTilde;", 0x2273), (b!"Gscr;", 0x1D4A2), (b!"Gt;", 0x226B), (b!"HARDcy;", 0x42A),
  (b!"Hacek;", 0x2C7), (b!"Hat;", 0x5E), (b!"Hcirc;", 0x124), (b!"Hfr;", 0x210C), (b!"HilbertSpace;", 0x210B), (b!"Hopf;", 0x210D),
  (b!"HorizontalLine;", 0x2500), (b!"Hscr;", 0x210B), (b!"Hstrok;", 0x126), (b!"HumpDownHump;", 0x224E), (b!"HumpEqual;", 0x224F),
  (b!"IEcy;", 0x415), (b!"IJlig;", 0x132), (b!"IOcy;", 0x401), (b!"Iacute", 0xCD), (b!"Iacute;", 0xCD), (b!"Icirc", 0xCE),
  (b!"Icirc;", 0xCE), (b!"Icy;", 0x418), (b!"Idot;", 0x130), (b!"Ifr;", 0x2111), (b!"Igrave", 0xCC), (b!"Igrave;", 0xCC),
  (b!"Im;", 0x2111), (b!"Imacr;", 0x12A), (b!"ImaginaryI;", 0x2148), (b!"Implies;", 0x21D2), (b!"Int;", 0x222C), (b!"Integral;", 0x222B),
  (b!"Intersection;", 0x22C2), (b!"InvisibleComma;", 0x2063), (b!"InvisibleTimes;", 0x2062), (b!"Iogon;", 0x12E), (b!"Iopf;", 0x1D540),
  (b!"Iota;", 0x399), (b!"Iscr;", 0x2110), (b!"Itilde;", 0x128), (b!"Iukcy;", 0x406), (b!"Iuml", 0xCF), (b!"Iuml;", 0xCF),
  (b!"Jcirc;", 0x134), (b!"Jcy;", 0x419), (b!"Jfr;", 0x1D50D), (b!"Jopf;", 0x1D541), (b!"Jscr;", 0x1D4A5), (b!"Jsercy;", 0x408),
  (b!"Jukcy;", 0x404), (b!"KHcy;", 0x425), (b!"KJcy;", 0x40C), (b!"Kappa;", 0x39A), (b!"Kcedil;", 0x136), (b!"Kcy;", 0x41A),
  (b!"Kfr;", 0x1D50E), (b!"Kopf;", 0x1D542), (b!"Kscr;", 0x1D4A6), (b!"LJcy;", 0x409), (b!"LT", 0x3C), (b!"LT;", 0x3C),
  (b!"Lacute;", 0x139), (b!"Lambda;", 0x39B)]

/-- `html/entity.go`, `entity`, part 2. -/
def entityPart2 : List (Bytes × Nat) := [
  (b!"Lang;", 0x27EA), (b!"Laplacetrf;", 0x2112), (b!"Larr;", 0x219E), (b!"Lcaron;", 0x13D), (b!"Lcedil;", 0x13B), (b!"Lcy;", 0x41B),
  (b!"LeftAngleBracket;", 0x27E8), (b!"LeftArrow;", 0x2190), (b!"LeftArrowBar;", 0x21E4), (b!"LeftArrowRightArrow;", 0x21C6),
  (b!"LeftCeiling;", 0x2308), (b!"LeftDoubleBracket;", 0x27E6), (b!"LeftDownTeeVector;", 0x2961), (b!"LeftDownVector;", 0x21C3),
  (b!"LeftDownVectorBar;", 0x2959), (b!"LeftFloor;", 0x230A), (b!"LeftRightArrow;", 0x2194), (b!"LeftRightVector;", 0x294E),
  (b!"LeftTee;", 0x22A3), (b!"LeftTeeArrow;", 0x21A4), (b!"LeftTeeVector;", 0x295A), (b!"LeftTriangle;", 0x22B2),
  (b!"LeftTriangleBar;", 0x29CF), (b!"LeftTriangleEqual;", 0x22B4), (b!"LeftUpDownVector;", 0x2951), (b!"LeftUpTeeVector;", 0x2960),
  (b!"LeftUpVector;", 0x21BF), (b!"LeftUpVectorBar;", 0x2958), (b!"LeftVector;", 0x21BC), (b!"LeftVectorBar;", 0x2952),
  (b!"Leftarrow;", 0x21D0), (b!"Leftrightarrow;", 0x21D4), (b!"LessEqualGreater;", 0x22DA), (b!"LessFullEqual;", 0x2266),
  (b!"LessGreater;", 0x2276), (b!"LessLess;", 0x2AA1), (b!"LessSlantEqual;", 0x2A7D), (b!"LessTilde;", 0x2272), (b!"Lfr;", 0x1D50F),
  (b!"Ll;", 0x22D8), (b!"Lleftarrow;", 0x21DA), (b!"Lmidot;", 0x13F), (b!"LongLeftArrow;", 0x27F5), (b!"LongLeftRightArrow;", 0x27F7),
  (b!"LongRightArrow;", 0x27F6), (b!"Longleftarrow;", 0x27F8), (b!"Longleftrightarrow;", 0x27FA), (b!"Longrightarrow;", 0x27F9),
  (b!"Lopf;", 0x1D543), (b!"LowerLeftArrow;", 0x2199), (b!"LowerRightArrow;", 0x2198), (b!"Lscr;", 0x2112), (b!"Lsh;", 0x21B0),
  (b!"Lstrok;", 0x141), (b!"Lt;", 0x226A), (b!"Map;", 0x2905), (b!"Mcy;", 0x41C), (b!"MediumSpace;", 0x205F), (b!"Mellintrf;", 0x2133),
  (b!"Mfr;", 0x1D510), (b!"MinusPlus;", 0x2213), (b!"Mopf;", 0x1D544), (b!"Mscr;", 0x2133), (b!"Mu;", 0x39C), (b!"NJcy;", 0x40A),
  (b!"Nacute;", 0x143), (b!"Ncaron;", 0x147), (b!"Ncedil;", 0x145), (b!"Ncy;", 0x41D), (b!"NegativeMediumSpace;", 0x200B),
  (b!"NegativeThickSpace;", 0x200B), (b!"NegativeThinSpace;", 0x200B), (b!"NegativeVeryThinSpace;", 0x200B),
  (b!"NestedGreaterGreater;", 0x226B), (b!"NestedLessLess;", 0x226A), (b!"NewLine;", 0xA), (b!"Nfr;", 0x1D511), (b!"NoBreak;", 0x2060),
  (b!"NonBreakingSpace;", 0xA0), (b!"Nopf;", 0x2115), (b!"Not;", 0x2AEC), (b!"NotCongruent;", 0x2262), (b!"NotCupCap;", 0x226D),
  (b!"NotDoubleVerticalBar;", 0x2226), (b!"NotElement;", 0x2209), (b!"NotEqual;", 0x2260), (b!"NotExists;", 0x2204),
  (b!"NotGreater;", 0x226F), (b!"NotGreaterEqual;", 0x2271), (b!"NotGreaterLess;", 0x2279), (b!"NotGreaterTilde;", 0x2275),
  (b!"NotLeftTriangle;", 0x22EA), (b!"NotLeftTriangleEqual;", 0x22EC), (b!"NotLess;", 0x226E), (b!"NotLessEqual;", 0x2270),
  (b!"NotLessGreater;", 0x2278), (b!"NotLessTilde;", 0x2274), (b!"NotPrecedes;", 0x2280), (b!"NotPrecedesSlantEqual;", 0x22E0),
  (b!"NotReverseElement;", 0x220C), (b!"NotRightTriangle;", 0x22EB), (b!"NotRightTriangleEqual;", 0x22ED),
  (b!"NotSquareSubsetEqual;", 0x22E2), (b!"NotSquareSupersetEqual;", 0x22E3), (b!"NotSubsetEqual;", 0x2288), (b!"NotSucceeds;", 0x2281),
  (b!"NotSucceedsSlantEqual;", 0x22E1), (b!"NotSupersetEqual;", 0x2289), (b!"NotTilde;", 0x2241), (b!"NotTildeEqual;", 0x2244),
  (b!"NotTildeFullEqual;", 0x2247), (b!"NotTildeTilde;", 0x2249), (b!"NotVerticalBar;", 0x2224), (b!"Nscr;", 0x1D4A9), (b!"Ntilde", 0xD1),
  (b!"Ntilde;", 0xD1), (b!"Nu;", 0x39D), (b!"OElig;", 0x152), (b!"Oacute", 0xD3), (b!"Oacute;", 0xD3), (b!"Ocirc", 0xD4),
  (b!"Ocirc;", 0xD4), (b!"Ocy;", 0x41E), (b!"Odblac;", 0x150), (b!"Ofr;", 0x1D512), (b!"Ograve", 0xD2), (b!"Ograve;", 0xD2),
  (b!"Omacr;", 0x14C), (b!"Omega;", 0x3A9), (b!"Omicron;", 0x39F), (b!"Oopf;", 0x1D546), (b!"OpenCurlyDoubleQuote;", 0x201C),
  (b!"OpenCurlyQuote;", 0x2018), (b!"Or;", 0x2A54), (b!"Oscr;", 0x1D4AA), (b!"Oslash", 0xD8), (b!"Oslash;", 0xD8), (b!"Otilde", 0xD5),
  (b!"Otilde;", 0xD5), (b!"Otimes;", 0x2A37), (b!"Ouml", 0xD6), (b!"Ouml;", 0xD6), (b!"OverBar;", 0x203E), (b!"OverBrace;", 0x23DE),
  (b!"OverBracket;", 0x23B4), (b!"OverParenthesis;", 0x23DC), (b!"PartialD;", 0x2202), (b!"Pcy;", 0x41F), (b!"Pfr;", 0x1D513),
  (b!"Phi;", 0x3A6), (b!"Pi;", 0x3A0), (b!"PlusMinus;", 0xB1), (b!"Poincareplane;", 0x210C), (b!"Popf;", 0x2119), (b!"Pr;", 0x2ABB),
  (b!"Precedes;", 0x227A), (b!"PrecedesEqual;", 0x2AAF), (b!"PrecedesSlantEqual;", 0x227C), (b!"PrecedesTilde;", 0x227E),
  (b!"Prime;", 0x2033), (b!"Product;", 0x220F), (b!"Proportion;", 0x2237), (b!"Proportional;", 0x221D), (b!"Pscr;", 0x1D4AB),
  (b!"Psi;", 0x3A8), (b!"QUOT", 0x22), (b!"QUOT;", 0x22), (b!"Qfr;", 0x1D514), (b!"Qopf;", 0x211A), (b!"Qscr;", 0x1D4AC),
  (b!"RBarr;", 0x2910), (b!"REG", 0xAE), (b!"REG;", 0xAE), (b!"Racute;", 0x154), (b!"Rang;", 0x27EB), (b!"Rarr;", 0x21A0),
  (b!"Rarrtl;", 0x2916), (b!"Rcaron;", 0x158), (b!"Rcedil;", 0x156), (b!"Rcy;", 0x420), (b!"Re;", 0x211C), (b!"ReverseElement;", 0x220B),
  (b!"ReverseEquilibrium;", 0x21CB), (b!"ReverseUpEquilibrium;", 0x296F), (b!"Rfr;", 0x211C), (b!"Rho;", 0x3A1),
  (b!"RightAngleBracket;", 0x27E9), (b!"RightArrow;", 0x2192), (b!"RightArrowBar;", 0x21E5), (b!"RightArrowLeftArrow;", 0x21C4),
  (b!"RightCeiling;", 0x2309), (b!"RightDoubleBracket;", 0x27E7), (b!"RightDownTeeVector;", 0x295D), (b!"RightDownVector;", 0x21C2),
  (b!"RightDownVectorBar;", 0x2955), (b!"RightFloor;", 0x230B), (b!"RightTee;", 0x22A2), (b!"RightTeeArrow;", 0x21A6),
  (b!"RightTeeVector;", 0x295B), (b!"RightTriangle;", 0x22B3), (b!"RightTriangleBar;", 0x29D0), (b!"RightTriangleEqual;", 0x22B5),
  (b!"RightUpDownVector;", 0x294F), (b!"RightUpTeeVector;", 0x295C), (b!"RightUpVector;", 0x21BE), (b!"RightUpVectorBar;", 0x2954),
  (b!"RightVector;", 0x21C0), (b!"RightVectorBar;", 0x2953), (b!"Rightarrow;", 0x21D2), (b!"Ropf;", 0x211D), (b!"RoundImplies;", 0x2970),
  (b!"Rrightarrow;", 0x21DB), (b!"Rscr;", 0x211B), (b!"Rsh;", 0x21B1), (b!"RuleDelayed;", 0x29F4), (b!"SHCHcy;", 0x429),
  (b!"SHcy;", 0x428), (b!"SOFTcy;", 0x42C), (b!"Sacute;", 0x15A), (b!"Sc;", 0x2ABC), (b!"Scaron;", 0x160), (b!"Scedil;", 0x15E),
  (b!"Scirc;", 0x15C), (b!"Scy;", 0x421), (b!"Sfr;", 0x1D516), (b!"ShortDownArrow;", 0x2193), (b!"ShortLeftArrow;", 0x2190),
  (b!"ShortRightArrow;", 0x2192), (b!"ShortUpArrow;", 0x2191), (b!"Sigma;", 0x3A3), (b!"SmallCircle;", 0x2218), (b!"Sopf;", 0x1D54A),
  (b!"Sqrt;", 0x221A), (b!"Square;", 0x25A1), (b!"SquareIntersection;", 0x2293), (b!"SquareSubset;", 0x228F),
  (b!"SquareSubsetEqual;", 0x2291), (b!"SquareSuperset;", 0x2290), (b!"SquareSupersetEqual;", 0x2292), (b!"SquareUnion;", 0x2294),
  (b!"Sscr;", 0x1D4AE), (b!"Star;", 0x22C6), (b!"Sub;", 0x22D0), (b!"Subset;", 0x22D0), (b!"SubsetEqual;", 0x2286),
  (b!"Succeeds;", 0x227B), (b!"SucceedsEqual;", 0x2AB0), (b!"SucceedsSlantEqual;", 0x227D), (b!"SucceedsTilde;", 0x227F),
  (b!"SuchThat;", 0x220B)]

/-- `html/entity.go`, `entity`, part 3. -/
def entityPart3 : List (Bytes × Nat) := [
  (b!"Sum;", 0x2211), (b!"Sup;", 0x22D1), (b!"Superset;", 0x2283), (b!"SupersetEqual;", 0x2287), (b!"Supset;", 0x22D1), (b!"THORN", 0xDE),
  (b!"THORN;", 0xDE), (b!"TRADE;", 0x2122), (b!"TSHcy;", 0x40B), (b!"TScy;", 0x426), (b!"Tab;", 0x9), (b!"Tau;", 0x3A4),
  (b!"Tcaron;", 0x164), (b!"Tcedil;", 0x162), (b!"Tcy;", 0x422), (b!"Tfr;", 0x1D517), (b!"Therefore;", 0x2234), (b!"Theta;", 0x398),
  (b!"ThinSpace;", 0x2009), (b!"Tilde;", 0x223C), (b!"TildeEqual;", 0x2243), (b!"TildeFullEqual;", 0x2245), (b!"TildeTilde;", 0x2248),
  (b!"Topf;", 0x1D54B), (b!"TripleDot;", 0x20DB), (b!"Tscr;", 0x1D4AF), (b!"Tstrok;", 0x166), (b!"Uacute", 0xDA), (b!"Uacute;", 0xDA),
  (b!"Uarr;", 0x219F), (b!"Uarrocir;", 0x2949), (b!"Ubrcy;", 0x40E), (b!"Ubreve;", 0x16C), (b!"Ucirc", 0xDB), (b!"Ucirc;", 0xDB),
  (b!"Ucy;", 0x423), (b!"Udblac;", 0x170), (b!"Ufr;", 0x1D518), (b!"Ugrave", 0xD9), (b!"Ugrave;", 0xD9), (b!"Umacr;", 0x16A),
  (b!"UnderBar;", 0x5F), (b!"UnderBrace;", 0x23DF), (b!"UnderBracket;", 0x23B5), (b!"UnderParenthesis;", 0x23DD), (b!"Union;", 0x22C3),
  (b!"UnionPlus;", 0x228E), (b!"Uogon;", 0x172), (b!"Uopf;", 0x1D54C), (b!"UpArrow;", 0x2191), (b!"UpArrowBar;", 0x2912),
  (b!"UpArrowDownArrow;", 0x21C5), (b!"UpDownArrow;", 0x2195), (b!"UpEquilibrium;", 0x296E), (b!"UpTee;", 0x22A5),
  (b!"UpTeeArrow;", 0x21A5), (b!"Uparrow;", 0x21D1), (b!"Updownarrow;", 0x21D5), (b!"UpperLeftArrow;", 0x2196),
  (b!"UpperRightArrow;", 0x2197), (b!"Upsi;", 0x3D2), (b!"Upsilon;", 0x3A5), (b!"Uring;", 0x16E), (b!"Uscr;", 0x1D4B0),
  (b!"Utilde;", 0x168), (b!"Uuml", 0xDC), (b!"Uuml;", 0xDC), (b!"VDash;", 0x22AB), (b!"Vbar;", 0x2AEB), (b!"Vcy;", 0x412),
  (b!"Vdash;", 0x22A9), (b!"Vdashl;", 0x2AE6), (b!"Vee;", 0x22C1), (b!"Verbar;", 0x2016), (b!"Vert;", 0x2016), (b!"VerticalBar;", 0x2223),
  (b!"VerticalLine;", 0x7C), (b!"VerticalSeparator;", 0x2758), (b!"VerticalTilde;", 0x2240), (b!"VeryThinSpace;", 0x200A),
  (b!"Vfr;", 0x1D519), (b!"Vopf;", 0x1D54D), (b!"Vscr;", 0x1D4B1), (b!"Vvdash;", 0x22AA), (b!"Wcirc;", 0x174), (b!"Wedge;", 0x22C0),
  (b!"Wfr;", 0x1D51A), (b!"Wopf;", 0x1D54E), (b!"Wscr;", 0x1D4B2), (b!"Xfr;", 0x1D51B), (b!"Xi;", 0x39E), (b!"Xopf;", 0x1D54F),
  (b!"Xscr;", 0x1D4B3), (b!"YAcy;", 0x42F), (b!"YIcy;", 0x407), (b!"YUcy;", 0x42E), (b!"Yacute", 0xDD), (b!"Yacute;", 0xDD),
  (b!"Ycirc;", 0x176), (b!"Ycy;", 0x42B), (b!"Yfr;", 0x1D51C), (b!"Yopf;", 0x1D550), (b!"Yscr;", 0x1D4B4), (b!"Yuml;", 0x178),
  (b!"ZHcy;", 0x416), (b!"Zacute;", 0x179), (b!"Zcaron;", 0x17D), (b!"Zcy;", 0x417), (b!"Zdot;", 0x17B), (b!"ZeroWidthSpace;", 0x200B),
  (b!"Zeta;", 0x396), (b!"Zfr;", 0x2128), (b!"Zopf;", 0x2124), (b!"Zscr;", 0x1D4B5), (b!"aacute", 0xE1), (b!"aacute;", 0xE1),
  (b!"abreve;", 0x103), (b!"ac;", 0x223E), (b!"acd;", 0x223F), (b!"acirc", 0xE2), (b!"acirc;", 0xE2), (b!"acute", 0xB4),
  (b!"acute;", 0xB4), (b!"acy;", 0x430), (b!"aelig", 0xE6), (b!"aelig;", 0xE6), (b!"af;", 0x2061), (b!"afr;", 0x1D51E), (b!"agrave", 0xE0),
  (b!"agrave;", 0xE0), (b!"alefsym;", 0x2135), (b!"aleph;", 0x2135), (b!"alpha;", 0x3B1), (b!"amacr;", 0x101), (b!"amalg;", 0x2A3F),
  (b!"amp", 0x26), (b!"amp;", 0x26), (b!"and;", 0x2227), (b!"andand;", 0x2A55), (b!"andd;", 0x2A5C), (b!"andslope;", 0x2A58),
  (b!"andv;", 0x2A5A), (b!"ang;", 0x2220), (b!"ange;", 0x29A4), (b!"angle;", 0x2220), (b!"angmsd;", 0x2221), (b!"angmsdaa;", 0x29A8),
  (b!"angmsdab;", 0x29A9), (b!"angmsdac;", 0x29AA), (b!"angmsdad;", 0x29AB), (b!"angmsdae;", 0x29AC), (b!"angmsdaf;", 0x29AD),
  (b!"angmsdag;", 0x29AE), (b!"angmsdah;", 0x29AF), (b!"angrt;", 0x221F), (b!"angrtvb;", 0x22BE), (b!"angrtvbd;", 0x299D),
  (b!"angsph;", 0x2222), (b!"angst;", 0xC5), (b!"angzarr;", 0x237C), (b!"aogon;", 0x105), (b!"aopf;", 0x1D552), (b!"ap;", 0x2248),
  (b!"apE;", 0x2A70), (b!"apacir;", 0x2A6F), (b!"ape;", 0x224A), (b!"apid;", 0x224B), (b!"apos;", 0x27), (b!"approx;", 0x2248),
  (b!"approxeq;", 0x224A), (b!"aring", 0xE5), (b!"aring;", 0xE5), (b!"ascr;", 0x1D4B6), (b!"ast;", 0x2A), (b!"asymp;", 0x2248),
  (b!"asympeq;", 0x224D), (b!"atilde", 0xE3), (b!"atilde;", 0xE3), (b!"auml", 0xE4), (b!"auml;", 0xE4), (b!"awconint;", 0x2233),
  (b!"awint;", 0x2A11), (b!"bNot;", 0x2AED), (b!"backcong;", 0x224C), (b!"backepsilon;", 0x3F6), (b!"backprime;", 0x2035),
  (b!"backsim;", 0x223D), (b!"backsimeq;", 0x22CD), (b!"barvee;", 0x22BD), (b!"barwed;", 0x2305), (b!"barwedge;", 0x2305),
  (b!"bbrk;", 0x23B5), (b!"bbrktbrk;", 0x23B6), (b!"bcong;", 0x224C), (b!"bcy;", 0x431), (b!"bdquo;", 0x201E), (b!"becaus;", 0x2235),
  (b!"because;", 0x2235), (b!"bemptyv;", 0x29B0), (b!"bepsi;", 0x3F6), (b!"bernou;", 0x212C), (b!"beta;", 0x3B2), (b!"beth;", 0x2136),
  (b!"between;", 0x226C), (b!"bfr;", 0x1D51F), (b!"bigcap;", 0x22C2), (b!"bigcirc;", 0x25EF), (b!"bigcup;", 0x22C3),
  (b!"bigodot;", 0x2A00), (b!"bigoplus;", 0x2A01), (b!"bigotimes;", 0x2A02), (b!"bigsqcup;", 0x2A06), (b!"bigstar;", 0x2605),
  (b!"bigtriangledown;", 0x25BD), (b!"bigtriangleup;", 0x25B3), (b!"biguplus;", 0x2A04), (b!"bigvee;", 0x22C1), (b!"bigwedge;", 0x22C0),
  (b!"bkarow;", 0x290D), (b!"blacklozenge;", 0x29EB), (b!"blacksquare;", 0x25AA), (b!"blacktriangle;", 0x25B4),
  (b!"blacktriangledown;", 0x25BE), (b!"blacktriangleleft;", 0x25C2), (b!"blacktriangleright;", 0x25B8), (b!"blank;", 0x2423),
  (b!"blk12;", 0x2592), (b!"blk14;", 0x2591), (b!"blk34;", 0x2593), (b!"block;", 0x2588), (b!"bnot;", 0x2310), (b!"bopf;", 0x1D553),
  (b!"bot;", 0x22A5), (b!"bottom;", 0x22A5), (b!"bowtie;", 0x22C8), (b!"boxDL;", 0x2557), (b!"boxDR;", 0x2554), (b!"boxDl;", 0x2556),
  (b!"boxDr;", 0x2553), (b!"boxH;", 0x2550), (b!"boxHD;", 0x2566), (b!"boxHU;", 0x2569), (b!"boxHd;", 0x2564), (b!"boxHu;", 0x2567),
  (b!"boxUL;", 0x255D), (b!"boxUR;", 0x255A), (b!"boxUl;", 0x255C), (b!"boxUr;", 0x2559), (b!"boxV;", 0x2551), (b!"boxVH;", 0x256C)]

/-- `html/entity.go`, `entity`, part 4. -/
def entityPart4 : List (Bytes × Nat) := [
  (b!"boxVL;", 0x2563), (b!"boxVR;", 0x2560), (b!"boxVh;", 0x256B), (b!"boxVl;", 0x2562), (b!"boxVr;", 0x255F), (b!"boxbox;", 0x29C9),
  (b!"boxdL;", 0x2555), (b!"boxdR;", 0x2552), (b!"boxdl;", 0x2510), (b!"boxdr;", 0x250C), (b!"boxh;", 0x2500), (b!"boxhD;", 0x2565),
  (b!"boxhU;", 0x2568), (b!"boxhd;", 0x252C), (b!"boxhu;", 0x2534), (b!"boxminus;", 0x229F), (b!"boxplus;", 0x229E),
  (b!"boxtimes;", 0x22A0), (b!"boxuL;", 0x255B), (b!"boxuR;", 0x2558), (b!"boxul;", 0x2518), (b!"boxur;", 0x2514), (b!"boxv;", 0x2502),
  (b!"boxvH;", 0x256A), (b!"boxvL;", 0x2561), (b!"boxvR;", 0x255E), (b!"boxvh;", 0x253C), (b!"boxvl;", 0x2524), (b!"boxvr;", 0x251C),
  (b!"bprime;", 0x2035), (b!"breve;", 0x2D8), (b!"brvbar", 0xA6), (b!"brvbar;", 0xA6), (b!"bscr;", 0x1D4B7), (b!"bsemi;", 0x204F),
  (b!"bsim;", 0x223D), (b!"bsime;", 0x22CD), (b!"bsol;", 0x5C), (b!"bsolb;", 0x29C5), (b!"bsolhsub;", 0x27C8), (b!"bull;", 0x2022),
  (b!"bullet;", 0x2022), (b!"bump;", 0x224E), (b!"bumpE;", 0x2AAE), (b!"bumpe;", 0x224F), (b!"bumpeq;", 0x224F), (b!"cacute;", 0x107),
  (b!"cap;", 0x2229), (b!"capand;", 0x2A44), (b!"capbrcup;", 0x2A49), (b!"capcap;", 0x2A4B), (b!"capcup;", 0x2A47), (b!"capdot;", 0x2A40),
  (b!"caret;", 0x2041), (b!"caron;", 0x2C7), (b!"ccaps;", 0x2A4D), (b!"ccaron;", 0x10D), (b!"ccedil", 0xE7), (b!"ccedil;", 0xE7),
  (b!"ccirc;", 0x109), (b!"ccups;", 0x2A4C), (b!"ccupssm;", 0x2A50), (b!"cdot;", 0x10B), (b!"cedil", 0xB8), (b!"cedil;", 0xB8),
  (b!"cemptyv;", 0x29B2), (b!"cent", 0xA2), (b!"cent;", 0xA2), (b!"centerdot;", 0xB7), (b!"cfr;", 0x1D520), (b!"chcy;", 0x447),
  (b!"check;", 0x2713), (b!"checkmark;", 0x2713), (b!"chi;", 0x3C7), (b!"cir;", 0x25CB), (b!"cirE;", 0x29C3), (b!"circ;", 0x2C6),
  (b!"circeq;", 0x2257), (b!"circlearrowleft;", 0x21BA), (b!"circlearrowright;", 0x21BB), (b!"circledR;", 0xAE), (b!"circledS;", 0x24C8),
  (b!"circledast;", 0x229B), (b!"circledcirc;", 0x229A), (b!"circleddash;", 0x229D), (b!"cire;", 0x2257), (b!"cirfnint;", 0x2A10),
  (b!"cirmid;", 0x2AEF), (b!"cirscir;", 0x29C2), (b!"clubs;", 0x2663), (b!"clubsuit;", 0x2663), (b!"colon;", 0x3A), (b!"colone;", 0x2254),
  (b!"coloneq;", 0x2254), (b!"comma;", 0x2C), (b!"commat;", 0x40), (b!"comp;", 0x2201), (b!"compfn;", 0x2218), (b!"complement;", 0x2201),
  (b!"complexes;", 0x2102), (b!"cong;", 0x2245), (b!"congdot;", 0x2A6D), (b!"conint;", 0x222E), (b!"copf;", 0x1D554),
  (b!"coprod;", 0x2210), (b!"copy", 0xA9), (b!"copy;", 0xA9), (b!"copysr;", 0x2117), (b!"crarr;", 0x21B5), (b!"cross;", 0x2717),
  (b!"cscr;", 0x1D4B8), (b!"csub;", 0x2ACF), (b!"csube;", 0x2AD1), (b!"csup;", 0x2AD0), (b!"csupe;", 0x2AD2), (b!"ctdot;", 0x22EF),
  (b!"cudarrl;", 0x2938), (b!"cudarrr;", 0x2935), (b!"cuepr;", 0x22DE), (b!"cuesc;", 0x22DF), (b!"cularr;", 0x21B6),
  (b!"cularrp;", 0x293D), (b!"cup;", 0x222A), (b!"cupbrcap;", 0x2A48), (b!"cupcap;", 0x2A46), (b!"cupcup;", 0x2A4A), (b!"cupdot;", 0x228D),
  (b!"cupor;", 0x2A45), (b!"curarr;", 0x21B7), (b!"curarrm;", 0x293C), (b!"curlyeqprec;", 0x22DE), (b!"curlyeqsucc;", 0x22DF),
  (b!"curlyvee;", 0x22CE), (b!"curlywedge;", 0x22CF), (b!"curren", 0xA4), (b!"curren;", 0xA4), (b!"curvearrowleft;", 0x21B6),
  (b!"curvearrowright;", 0x21B7), (b!"cuvee;", 0x22CE), (b!"cuwed;", 0x22CF), (b!"cwconint;", 0x2232), (b!"cwint;", 0x2231),
  (b!"cylcty;", 0x232D), (b!"dArr;", 0x21D3), (b!"dHar;", 0x2965), (b!"dagger;", 0x2020), (b!"daleth;", 0x2138), (b!"darr;", 0x2193),
  (b!"dash;", 0x2010), (b!"dashv;", 0x22A3), (b!"dbkarow;", 0x290F), (b!"dblac;", 0x2DD), (b!"dcaron;", 0x10F), (b!"dcy;", 0x434),
  (b!"dd;", 0x2146), (b!"ddagger;", 0x2021), (b!"ddarr;", 0x21CA), (b!"ddotseq;", 0x2A77), (b!"deg", 0xB0), (b!"deg;", 0xB0),
  (b!"delta;", 0x3B4), (b!"demptyv;", 0x29B1), (b!"dfisht;", 0x297F), (b!"dfr;", 0x1D521), (b!"dharl;", 0x21C3), (b!"dharr;", 0x21C2),
  (b!"diam;", 0x22C4), (b!"diamond;", 0x22C4), (b!"diamondsuit;", 0x2666), (b!"diams;", 0x2666), (b!"die;", 0xA8), (b!"digamma;", 0x3DD),
  (b!"disin;", 0x22F2), (b!"div;", 0xF7), (b!"divide", 0xF7), (b!"divide;", 0xF7), (b!"divideontimes;", 0x22C7), (b!"divonx;", 0x22C7),
  (b!"djcy;", 0x452), (b!"dlcorn;", 0x231E), (b!"dlcrop;", 0x230D), (b!"dollar;", 0x24), (b!"dopf;", 0x1D555), (b!"dot;", 0x2D9),
  (b!"doteq;", 0x2250), (b!"doteqdot;", 0x2251), (b!"dotminus;", 0x2238), (b!"dotplus;", 0x2214), (b!"dotsquare;", 0x22A1),
  (b!"doublebarwedge;", 0x2306), (b!"downarrow;", 0x2193), (b!"downdownarrows;", 0x21CA), (b!"downharpoonleft;", 0x21C3),
  (b!"downharpoonright;", 0x21C2), (b!"drbkarow;", 0x2910), (b!"drcorn;", 0x231F), (b!"drcrop;", 0x230C), (b!"dscr;", 0x1D4B9),
  (b!"dscy;", 0x455), (b!"dsol;", 0x29F6), (b!"dstrok;", 0x111), (b!"dtdot;", 0x22F1), (b!"dtri;", 0x25BF), (b!"dtrif;", 0x25BE),
  (b!"duarr;", 0x21F5), (b!"duhar;", 0x296F), (b!"dwangle;", 0x29A6), (b!"dzcy;", 0x45F), (b!"dzigrarr;", 0x27FF), (b!"eDDot;", 0x2A77),
  (b!"eDot;", 0x2251), (b!"eacute", 0xE9), (b!"eacute;", 0xE9), (b!"easter;", 0x2A6E), (b!"ecaron;", 0x11B), (b!"ecir;", 0x2256),
  (b!"ecirc", 0xEA), (b!"ecirc;", 0xEA), (b!"ecolon;", 0x2255), (b!"ecy;", 0x44D), (b!"edot;", 0x117), (b!"ee;", 0x2147),
  (b!"efDot;", 0x2252), (b!"efr;", 0x1D522), (b!"eg;", 0x2A9A), (b!"egrave", 0xE8), (b!"egrave;", 0xE8), (b!"egs;", 0x2A96),
  (b!"egsdot;", 0x2A98), (b!"el;", 0x2A99), (b!"elinters;", 0x23E7), (b!"ell;", 0x2113), (b!"els;", 0x2A95), (b!"elsdot;", 0x2A97),
  (b!"emacr;", 0x113), (b!"empty;", 0x2205), (b!"emptyset;", 0x2205), (b!"emptyv;", 0x2205), (b!"emsp13;", 0x2004), (b!"emsp14;", 0x2005),
  (b!"emsp;", 0x2003), (b!"eng;", 0x14B), (b!"ensp;", 0x2002), (b!"eogon;", 0x119), (b!"eopf;", 0x1D556), (b!"epar;", 0x22D5),
  (b!"eparsl;", 0x29E3), (b!"eplus;", 0x2A71), (b!"epsi;", 0x3B5), (b!"epsilon;", 0x3B5)]

/-- `html/entity.go`, `entity`, part 5. -/
def entityPart5 : List (Bytes × Nat) := [
  (b!"epsiv;", 0x3F5), (b!"eqcirc;", 0x2256), (b!"eqcolon;", 0x2255), (b!"eqsim;", 0x2242), (b!"eqslantgtr;", 0x2A96),
  (b!"eqslantless;", 0x2A95), (b!"equals;", 0x3D), (b!"equest;", 0x225F), (b!"equiv;", 0x2261), (b!"equivDD;", 0x2A78),
  (b!"eqvparsl;", 0x29E5), (b!"erDot;", 0x2253), (b!"erarr;", 0x2971), (b!"escr;", 0x212F), (b!"esdot;", 0x2250), (b!"esim;", 0x2242),
  (b!"eta;", 0x3B7), (b!"eth", 0xF0), (b!"eth;", 0xF0), (b!"euml", 0xEB), (b!"euml;", 0xEB), (b!"euro;", 0x20AC), (b!"excl;", 0x21),
  (b!"exist;", 0x2203), (b!"expectation;", 0x2130), (b!"exponentiale;", 0x2147), (b!"fallingdotseq;", 0x2252), (b!"fcy;", 0x444),
  (b!"female;", 0x2640), (b!"ffilig;", 0xFB03), (b!"fflig;", 0xFB00), (b!"ffllig;", 0xFB04), (b!"ffr;", 0x1D523), (b!"filig;", 0xFB01),
  (b!"flat;", 0x266D), (b!"fllig;", 0xFB02), (b!"fltns;", 0x25B1), (b!"fnof;", 0x192), (b!"fopf;", 0x1D557), (b!"forall;", 0x2200),
  (b!"fork;", 0x22D4), (b!"forkv;", 0x2AD9), (b!"fpartint;", 0x2A0D), (b!"frac12", 0xBD), (b!"frac12;", 0xBD), (b!"frac13;", 0x2153),
  (b!"frac14", 0xBC), (b!"frac14;", 0xBC), (b!"frac15;", 0x2155), (b!"frac16;", 0x2159), (b!"frac18;", 0x215B), (b!"frac23;", 0x2154),
  (b!"frac25;", 0x2156), (b!"frac34", 0xBE), (b!"frac34;", 0xBE), (b!"frac35;", 0x2157), (b!"frac38;", 0x215C), (b!"frac45;", 0x2158),
  (b!"frac56;", 0x215A), (b!"frac58;", 0x215D), (b!"frac78;", 0x215E), (b!"frasl;", 0x2044), (b!"frown;", 0x2322), (b!"fscr;", 0x1D4BB),
  (b!"gE;", 0x2267), (b!"gEl;", 0x2A8C), (b!"gacute;", 0x1F5), (b!"gamma;", 0x3B3), (b!"gammad;", 0x3DD), (b!"gap;", 0x2A86),
  (b!"gbreve;", 0x11F), (b!"gcirc;", 0x11D), (b!"gcy;", 0x433), (b!"gdot;", 0x121), (b!"ge;", 0x2265), (b!"gel;", 0x22DB),
  (b!"geq;", 0x2265), (b!"geqq;", 0x2267), (b!"geqslant;", 0x2A7E), (b!"ges;", 0x2A7E), (b!"gescc;", 0x2AA9), (b!"gesdot;", 0x2A80),
  (b!"gesdoto;", 0x2A82), (b!"gesdotol;", 0x2A84), (b!"gesles;", 0x2A94), (b!"gfr;", 0x1D524), (b!"gg;", 0x226B), (b!"ggg;", 0x22D9),
  (b!"gimel;", 0x2137), (b!"gjcy;", 0x453), (b!"gl;", 0x2277), (b!"glE;", 0x2A92), (b!"gla;", 0x2AA5), (b!"glj;", 0x2AA4),
  (b!"gnE;", 0x2269), (b!"gnap;", 0x2A8A), (b!"gnapprox;", 0x2A8A), (b!"gne;", 0x2A88), (b!"gneq;", 0x2A88), (b!"gneqq;", 0x2269),
  (b!"gnsim;", 0x22E7), (b!"gopf;", 0x1D558), (b!"grave;", 0x60), (b!"gscr;", 0x210A), (b!"gsim;", 0x2273), (b!"gsime;", 0x2A8E),
  (b!"gsiml;", 0x2A90), (b!"gt", 0x3E), (b!"gt;", 0x3E), (b!"gtcc;", 0x2AA7), (b!"gtcir;", 0x2A7A), (b!"gtdot;", 0x22D7),
  (b!"gtlPar;", 0x2995), (b!"gtquest;", 0x2A7C), (b!"gtrapprox;", 0x2A86), (b!"gtrarr;", 0x2978), (b!"gtrdot;", 0x22D7),
  (b!"gtreqless;", 0x22DB), (b!"gtreqqless;", 0x2A8C), (b!"gtrless;", 0x2277), (b!"gtrsim;", 0x2273), (b!"hArr;", 0x21D4),
  (b!"hairsp;", 0x200A), (b!"half;", 0xBD), (b!"hamilt;", 0x210B), (b!"hardcy;", 0x44A), (b!"harr;", 0x2194), (b!"harrcir;", 0x2948),
  (b!"harrw;", 0x21AD), (b!"hbar;", 0x210F), (b!"hcirc;", 0x125), (b!"hearts;", 0x2665), (b!"heartsuit;", 0x2665), (b!"hellip;", 0x2026),
  (b!"hercon;", 0x22B9), (b!"hfr;", 0x1D525), (b!"hksearow;", 0x2925), (b!"hkswarow;", 0x2926), (b!"hoarr;", 0x21FF),
  (b!"homtht;", 0x223B), (b!"hookleftarrow;", 0x21A9), (b!"hookrightarrow;", 0x21AA), (b!"hopf;", 0x1D559), (b!"horbar;", 0x2015),
  (b!"hscr;", 0x1D4BD), (b!"hslash;", 0x210F), (b!"hstrok;", 0x127), (b!"hybull;", 0x2043), (b!"hyphen;", 0x2010), (b!"iacute", 0xED),
  (b!"iacute;", 0xED), (b!"ic;", 0x2063), (b!"icirc", 0xEE), (b!"icirc;", 0xEE), (b!"icy;", 0x438), (b!"iecy;", 0x435), (b!"iexcl", 0xA1),
  (b!"iexcl;", 0xA1), (b!"iff;", 0x21D4), (b!"ifr;", 0x1D526), (b!"igrave", 0xEC), (b!"igrave;", 0xEC), (b!"ii;", 0x2148),
  (b!"iiiint;", 0x2A0C), (b!"iiint;", 0x222D), (b!"iinfin;", 0x29DC), (b!"iiota;", 0x2129), (b!"ijlig;", 0x133), (b!"imacr;", 0x12B),
  (b!"image;", 0x2111), (b!"imagline;", 0x2110), (b!"imagpart;", 0x2111), (b!"imath;", 0x131), (b!"imof;", 0x22B7), (b!"imped;", 0x1B5),
  (b!"in;", 0x2208), (b!"incare;", 0x2105), (b!"infin;", 0x221E), (b!"infintie;", 0x29DD), (b!"inodot;", 0x131), (b!"int;", 0x222B),
  (b!"intcal;", 0x22BA), (b!"integers;", 0x2124), (b!"intercal;", 0x22BA), (b!"intlarhk;", 0x2A17), (b!"intprod;", 0x2A3C),
  (b!"iocy;", 0x451), (b!"iogon;", 0x12F), (b!"iopf;", 0x1D55A), (b!"iota;", 0x3B9), (b!"iprod;", 0x2A3C), (b!"iquest", 0xBF),
  (b!"iquest;", 0xBF), (b!"iscr;", 0x1D4BE), (b!"isin;", 0x2208), (b!"isinE;", 0x22F9), (b!"isindot;", 0x22F5), (b!"isins;", 0x22F4),
  (b!"isinsv;", 0x22F3), (b!"isinv;", 0x2208), (b!"it;", 0x2062), (b!"itilde;", 0x129), (b!"iukcy;", 0x456), (b!"iuml", 0xEF),
  (b!"iuml;", 0xEF), (b!"jcirc;", 0x135), (b!"jcy;", 0x439), (b!"jfr;", 0x1D527), (b!"jmath;", 0x237), (b!"jopf;", 0x1D55B),
  (b!"jscr;", 0x1D4BF), (b!"jsercy;", 0x458), (b!"jukcy;", 0x454), (b!"kappa;", 0x3BA), (b!"kappav;", 0x3F0), (b!"kcedil;", 0x137),
  (b!"kcy;", 0x43A), (b!"kfr;", 0x1D528), (b!"kgreen;", 0x138), (b!"khcy;", 0x445), (b!"kjcy;", 0x45C), (b!"kopf;", 0x1D55C),
  (b!"kscr;", 0x1D4C0), (b!"lAarr;", 0x21DA), (b!"lArr;", 0x21D0), (b!"lAtail;", 0x291B), (b!"lBarr;", 0x290E), (b!"lE;", 0x2266),
  (b!"lEg;", 0x2A8B), (b!"lHar;", 0x2962), (b!"lacute;", 0x13A), (b!"laemptyv;", 0x29B4), (b!"lagran;", 0x2112), (b!"lambda;", 0x3BB),
  (b!"lang;", 0x27E8), (b!"langd;", 0x2991), (b!"langle;", 0x27E8), (b!"lap;", 0x2A85), (b!"laquo", 0xAB), (b!"laquo;", 0xAB),
  (b!"larr;", 0x2190), (b!"larrb;", 0x21E4), (b!"larrbfs;", 0x291F), (b!"larrfs;", 0x291D), (b!"larrhk;", 0x21A9), (b!"larrlp;", 0x21AB),
  (b!"larrpl;", 0x2939), (b!"larrsim;", 0x2973), (b!"larrtl;", 0x21A2), (b!"lat;", 0x2AAB)]

/-- `html/entity.go`, `entity`, part 6. -/
def entityPart6 : List (Bytes × Nat) := [
  (b!"latail;", 0x2919), (b!"late;", 0x2AAD), (b!"lbarr;", 0x290C), (b!"lbbrk;", 0x2772), (b!"lbrace;", 0x7B), (b!"lbrack;", 0x5B),
  (b!"lbrke;", 0x298B), (b!"lbrksld;", 0x298F), (b!"lbrkslu;", 0x298D), (b!"lcaron;", 0x13E), (b!"lcedil;", 0x13C), (b!"lceil;", 0x2308),
  (b!"lcub;", 0x7B), (b!"lcy;", 0x43B), (b!"ldca;", 0x2936), (b!"ldquo;", 0x201C), (b!"ldquor;", 0x201E), (b!"ldrdhar;", 0x2967),
  (b!"ldrushar;", 0x294B), (b!"ldsh;", 0x21B2), (b!"le;", 0x2264), (b!"leftarrow;", 0x2190), (b!"leftarrowtail;", 0x21A2),
  (b!"leftharpoondown;", 0x21BD), (b!"leftharpoonup;", 0x21BC), (b!"leftleftarrows;", 0x21C7), (b!"leftrightarrow;", 0x2194),
  (b!"leftrightarrows;", 0x21C6), (b!"leftrightharpoons;", 0x21CB), (b!"leftrightsquigarrow;", 0x21AD), (b!"leftthreetimes;", 0x22CB),
  (b!"leg;", 0x22DA), (b!"leq;", 0x2264), (b!"leqq;", 0x2266), (b!"leqslant;", 0x2A7D), (b!"les;", 0x2A7D), (b!"lescc;", 0x2AA8),
  (b!"lesdot;", 0x2A7F), (b!"lesdoto;", 0x2A81), (b!"lesdotor;", 0x2A83), (b!"lesges;", 0x2A93), (b!"lessapprox;", 0x2A85),
  (b!"lessdot;", 0x22D6), (b!"lesseqgtr;", 0x22DA), (b!"lesseqqgtr;", 0x2A8B), (b!"lessgtr;", 0x2276), (b!"lesssim;", 0x2272),
  (b!"lfisht;", 0x297C), (b!"lfloor;", 0x230A), (b!"lfr;", 0x1D529), (b!"lg;", 0x2276), (b!"lgE;", 0x2A91), (b!"lhard;", 0x21BD),
  (b!"lharu;", 0x21BC), (b!"lharul;", 0x296A), (b!"lhblk;", 0x2584), (b!"ljcy;", 0x459), (b!"ll;", 0x226A), (b!"llarr;", 0x21C7),
  (b!"llcorner;", 0x231E), (b!"llhard;", 0x296B), (b!"lltri;", 0x25FA), (b!"lmidot;", 0x140), (b!"lmoust;", 0x23B0),
  (b!"lmoustache;", 0x23B0), (b!"lnE;", 0x2268), (b!"lnap;", 0x2A89), (b!"lnapprox;", 0x2A89), (b!"lne;", 0x2A87), (b!"lneq;", 0x2A87),
  (b!"lneqq;", 0x2268), (b!"lnsim;", 0x22E6), (b!"loang;", 0x27EC), (b!"loarr;", 0x21FD), (b!"lobrk;", 0x27E6),
  (b!"longleftarrow;", 0x27F5), (b!"longleftrightarrow;", 0x27F7), (b!"longmapsto;", 0x27FC), (b!"longrightarrow;", 0x27F6),
  (b!"looparrowleft;", 0x21AB), (b!"looparrowright;", 0x21AC), (b!"lopar;", 0x2985), (b!"lopf;", 0x1D55D), (b!"loplus;", 0x2A2D),
  (b!"lotimes;", 0x2A34), (b!"lowast;", 0x2217), (b!"lowbar;", 0x5F), (b!"loz;", 0x25CA), (b!"lozenge;", 0x25CA), (b!"lozf;", 0x29EB),
  (b!"lpar;", 0x28), (b!"lparlt;", 0x2993), (b!"lrarr;", 0x21C6), (b!"lrcorner;", 0x231F), (b!"lrhar;", 0x21CB), (b!"lrhard;", 0x296D),
  (b!"lrm;", 0x200E), (b!"lrtri;", 0x22BF), (b!"lsaquo;", 0x2039), (b!"lscr;", 0x1D4C1), (b!"lsh;", 0x21B0), (b!"lsim;", 0x2272),
  (b!"lsime;", 0x2A8D), (b!"lsimg;", 0x2A8F), (b!"lsqb;", 0x5B), (b!"lsquo;", 0x2018), (b!"lsquor;", 0x201A), (b!"lstrok;", 0x142),
  (b!"lt", 0x3C), (b!"lt;", 0x3C), (b!"ltcc;", 0x2AA6), (b!"ltcir;", 0x2A79), (b!"ltdot;", 0x22D6), (b!"lthree;", 0x22CB),
  (b!"ltimes;", 0x22C9), (b!"ltlarr;", 0x2976), (b!"ltquest;", 0x2A7B), (b!"ltrPar;", 0x2996), (b!"ltri;", 0x25C3), (b!"ltrie;", 0x22B4),
  (b!"ltrif;", 0x25C2), (b!"lurdshar;", 0x294A), (b!"luruhar;", 0x2966), (b!"mDDot;", 0x223A), (b!"macr", 0xAF), (b!"macr;", 0xAF),
  (b!"male;", 0x2642), (b!"malt;", 0x2720), (b!"maltese;", 0x2720), (b!"map;", 0x21A6), (b!"mapsto;", 0x21A6), (b!"mapstodown;", 0x21A7),
  (b!"mapstoleft;", 0x21A4), (b!"mapstoup;", 0x21A5), (b!"marker;", 0x25AE), (b!"mcomma;", 0x2A29), (b!"mcy;", 0x43C),
  (b!"mdash;", 0x2014), (b!"measuredangle;", 0x2221), (b!"mfr;", 0x1D52A), (b!"mho;", 0x2127), (b!"micro", 0xB5), (b!"micro;", 0xB5),
  (b!"mid;", 0x2223), (b!"midast;", 0x2A), (b!"midcir;", 0x2AF0), (b!"middot", 0xB7), (b!"middot;", 0xB7), (b!"minus;", 0x2212),
  (b!"minusb;", 0x229F), (b!"minusd;", 0x2238), (b!"minusdu;", 0x2A2A), (b!"mlcp;", 0x2ADB), (b!"mldr;", 0x2026), (b!"mnplus;", 0x2213),
  (b!"models;", 0x22A7), (b!"mopf;", 0x1D55E), (b!"mp;", 0x2213), (b!"mscr;", 0x1D4C2), (b!"mstpos;", 0x223E), (b!"mu;", 0x3BC),
  (b!"multimap;", 0x22B8), (b!"mumap;", 0x22B8), (b!"nLeftarrow;", 0x21CD), (b!"nLeftrightarrow;", 0x21CE), (b!"nRightarrow;", 0x21CF),
  (b!"nVDash;", 0x22AF), (b!"nVdash;", 0x22AE), (b!"nabla;", 0x2207), (b!"nacute;", 0x144), (b!"nap;", 0x2249), (b!"napos;", 0x149),
  (b!"napprox;", 0x2249), (b!"natur;", 0x266E), (b!"natural;", 0x266E), (b!"naturals;", 0x2115), (b!"nbsp", 0xA0), (b!"nbsp;", 0xA0),
  (b!"ncap;", 0x2A43), (b!"ncaron;", 0x148), (b!"ncedil;", 0x146), (b!"ncong;", 0x2247), (b!"ncup;", 0x2A42), (b!"ncy;", 0x43D),
  (b!"ndash;", 0x2013), (b!"ne;", 0x2260), (b!"neArr;", 0x21D7), (b!"nearhk;", 0x2924), (b!"nearr;", 0x2197), (b!"nearrow;", 0x2197),
  (b!"nequiv;", 0x2262), (b!"nesear;", 0x2928), (b!"nexist;", 0x2204), (b!"nexists;", 0x2204), (b!"nfr;", 0x1D52B), (b!"nge;", 0x2271),
  (b!"ngeq;", 0x2271), (b!"ngsim;", 0x2275), (b!"ngt;", 0x226F), (b!"ngtr;", 0x226F), (b!"nhArr;", 0x21CE), (b!"nharr;", 0x21AE),
  (b!"nhpar;", 0x2AF2), (b!"ni;", 0x220B), (b!"nis;", 0x22FC), (b!"nisd;", 0x22FA), (b!"niv;", 0x220B), (b!"njcy;", 0x45A),
  (b!"nlArr;", 0x21CD), (b!"nlarr;", 0x219A), (b!"nldr;", 0x2025), (b!"nle;", 0x2270), (b!"nleftarrow;", 0x219A),
  (b!"nleftrightarrow;", 0x21AE), (b!"nleq;", 0x2270), (b!"nless;", 0x226E), (b!"nlsim;", 0x2274), (b!"nlt;", 0x226E),
  (b!"nltri;", 0x22EA), (b!"nltrie;", 0x22EC), (b!"nmid;", 0x2224), (b!"nopf;", 0x1D55F), (b!"not", 0xAC), (b!"not;", 0xAC),
  (b!"notin;", 0x2209), (b!"notinva;", 0x2209), (b!"notinvb;", 0x22F7), (b!"notinvc;", 0x22F6), (b!"notni;", 0x220C),
  (b!"notniva;", 0x220C), (b!"notnivb;", 0x22FE), (b!"notnivc;", 0x22FD), (b!"npar;", 0x2226), (b!"nparallel;", 0x2226),
  (b!"npolint;", 0x2A14), (b!"npr;", 0x2280), (b!"nprcue;", 0x22E0), (b!"nprec;", 0x2280), (b!"nrArr;", 0x21CF), (b!"nrarr;", 0x219B),
  (b!"nrightarrow;", 0x219B), (b!"nrtri;", 0x22EB), (b!"nrtrie;", 0x22ED), (b!"nsc;", 0x2281), (b!"nsccue;", 0x22E1), (b!"nscr;", 0x1D4C3),
  (b!"nshortmid;", 0x2224), (b!"nshortparallel;", 0x2226), (b!"nsim;", 0x2241), (b!"nsime;", 0x2244)]

/-- `html/entity.go`, `entity`, part 7. -/
def entityPart7 : List (Bytes × Nat) := [
  (b!"nsimeq;", 0x2244), (b!"nsmid;", 0x2224), (b!"nspar;", 0x2226), (b!"nsqsube;", 0x22E2), (b!"nsqsupe;", 0x22E3), (b!"nsub;", 0x2284),
  (b!"nsube;", 0x2288), (b!"nsubseteq;", 0x2288), (b!"nsucc;", 0x2281), (b!"nsup;", 0x2285), (b!"nsupe;", 0x2289),
  (b!"nsupseteq;", 0x2289), (b!"ntgl;", 0x2279), (b!"ntilde", 0xF1), (b!"ntilde;", 0xF1), (b!"ntlg;", 0x2278),
  (b!"ntriangleleft;", 0x22EA), (b!"ntrianglelefteq;", 0x22EC), (b!"ntriangleright;", 0x22EB), (b!"ntrianglerighteq;", 0x22ED),
  (b!"nu;", 0x3BD), (b!"num;", 0x23), (b!"numero;", 0x2116), (b!"numsp;", 0x2007), (b!"nvDash;", 0x22AD), (b!"nvHarr;", 0x2904),
  (b!"nvdash;", 0x22AC), (b!"nvinfin;", 0x29DE), (b!"nvlArr;", 0x2902), (b!"nvrArr;", 0x2903), (b!"nwArr;", 0x21D6), (b!"nwarhk;", 0x2923),
  (b!"nwarr;", 0x2196), (b!"nwarrow;", 0x2196), (b!"nwnear;", 0x2927), (b!"oS;", 0x24C8), (b!"oacute", 0xF3), (b!"oacute;", 0xF3),
  (b!"oast;", 0x229B), (b!"ocir;", 0x229A), (b!"ocirc", 0xF4), (b!"ocirc;", 0xF4), (b!"ocy;", 0x43E), (b!"odash;", 0x229D),
  (b!"odblac;", 0x151), (b!"odiv;", 0x2A38), (b!"odot;", 0x2299), (b!"odsold;", 0x29BC), (b!"oelig;", 0x153), (b!"ofcir;", 0x29BF),
  (b!"ofr;", 0x1D52C), (b!"ogon;", 0x2DB), (b!"ograve", 0xF2), (b!"ograve;", 0xF2), (b!"ogt;", 0x29C1), (b!"ohbar;", 0x29B5),
  (b!"ohm;", 0x3A9), (b!"oint;", 0x222E), (b!"olarr;", 0x21BA), (b!"olcir;", 0x29BE), (b!"olcross;", 0x29BB), (b!"oline;", 0x203E),
  (b!"olt;", 0x29C0), (b!"omacr;", 0x14D), (b!"omega;", 0x3C9), (b!"omicron;", 0x3BF), (b!"omid;", 0x29B6), (b!"ominus;", 0x2296),
  (b!"oopf;", 0x1D560), (b!"opar;", 0x29B7), (b!"operp;", 0x29B9), (b!"oplus;", 0x2295), (b!"or;", 0x2228), (b!"orarr;", 0x21BB),
  (b!"ord;", 0x2A5D), (b!"order;", 0x2134), (b!"orderof;", 0x2134), (b!"ordf", 0xAA), (b!"ordf;", 0xAA), (b!"ordm", 0xBA),
  (b!"ordm;", 0xBA), (b!"origof;", 0x22B6), (b!"oror;", 0x2A56), (b!"orslope;", 0x2A57), (b!"orv;", 0x2A5B), (b!"oscr;", 0x2134),
  (b!"oslash", 0xF8), (b!"oslash;", 0xF8), (b!"osol;", 0x2298), (b!"otilde", 0xF5), (b!"otilde;", 0xF5), (b!"otimes;", 0x2297),
  (b!"otimesas;", 0x2A36), (b!"ouml", 0xF6), (b!"ouml;", 0xF6), (b!"ovbar;", 0x233D), (b!"par;", 0x2225), (b!"para", 0xB6),
  (b!"para;", 0xB6), (b!"parallel;", 0x2225), (b!"parsim;", 0x2AF3), (b!"parsl;", 0x2AFD), (b!"part;", 0x2202), (b!"pcy;", 0x43F),
  (b!"percnt;", 0x25), (b!"period;", 0x2E), (b!"permil;", 0x2030), (b!"perp;", 0x22A5), (b!"pertenk;", 0x2031), (b!"pfr;", 0x1D52D),
  (b!"phi;", 0x3C6), (b!"phiv;", 0x3D5), (b!"phmmat;", 0x2133), (b!"phone;", 0x260E), (b!"pi;", 0x3C0), (b!"pitchfork;", 0x22D4),
  (b!"piv;", 0x3D6), (b!"planck;", 0x210F), (b!"planckh;", 0x210E), (b!"plankv;", 0x210F), (b!"plus;", 0x2B), (b!"plusacir;", 0x2A23),
  (b!"plusb;", 0x229E), (b!"pluscir;", 0x2A22), (b!"plusdo;", 0x2214), (b!"plusdu;", 0x2A25), (b!"pluse;", 0x2A72), (b!"plusmn", 0xB1),
  (b!"plusmn;", 0xB1), (b!"plussim;", 0x2A26), (b!"plustwo;", 0x2A27), (b!"pm;", 0xB1), (b!"pointint;", 0x2A15), (b!"popf;", 0x1D561),
  (b!"pound", 0xA3), (b!"pound;", 0xA3), (b!"pr;", 0x227A), (b!"prE;", 0x2AB3), (b!"prap;", 0x2AB7), (b!"prcue;", 0x227C),
  (b!"pre;", 0x2AAF), (b!"prec;", 0x227A), (b!"precapprox;", 0x2AB7), (b!"preccurlyeq;", 0x227C), (b!"preceq;", 0x2AAF),
  (b!"precnapprox;", 0x2AB9), (b!"precneqq;", 0x2AB5), (b!"precnsim;", 0x22E8), (b!"precsim;", 0x227E), (b!"prime;", 0x2032),
  (b!"primes;", 0x2119), (b!"prnE;", 0x2AB5), (b!"prnap;", 0x2AB9), (b!"prnsim;", 0x22E8), (b!"prod;", 0x220F), (b!"profalar;", 0x232E),
  (b!"profline;", 0x2312), (b!"profsurf;", 0x2313), (b!"prop;", 0x221D), (b!"propto;", 0x221D), (b!"prsim;", 0x227E),
  (b!"prurel;", 0x22B0), (b!"pscr;", 0x1D4C5), (b!"psi;", 0x3C8), (b!"puncsp;", 0x2008), (b!"qfr;", 0x1D52E), (b!"qint;", 0x2A0C),
  (b!"qopf;", 0x1D562), (b!"qprime;", 0x2057), (b!"qscr;", 0x1D4C6), (b!"quaternions;", 0x210D), (b!"quatint;", 0x2A16),
  (b!"quest;", 0x3F), (b!"questeq;", 0x225F), (b!"quot", 0x22), (b!"quot;", 0x22), (b!"rAarr;", 0x21DB), (b!"rArr;", 0x21D2),
  (b!"rAtail;", 0x291C), (b!"rBarr;", 0x290F), (b!"rHar;", 0x2964), (b!"racute;", 0x155), (b!"radic;", 0x221A), (b!"raemptyv;", 0x29B3),
  (b!"rang;", 0x27E9), (b!"rangd;", 0x2992), (b!"range;", 0x29A5), (b!"rangle;", 0x27E9), (b!"raquo", 0xBB), (b!"raquo;", 0xBB),
  (b!"rarr;", 0x2192), (b!"rarrap;", 0x2975), (b!"rarrb;", 0x21E5), (b!"rarrbfs;", 0x2920), (b!"rarrc;", 0x2933), (b!"rarrfs;", 0x291E),
  (b!"rarrhk;", 0x21AA), (b!"rarrlp;", 0x21AC), (b!"rarrpl;", 0x2945), (b!"rarrsim;", 0x2974), (b!"rarrtl;", 0x21A3), (b!"rarrw;", 0x219D),
  (b!"ratail;", 0x291A), (b!"ratio;", 0x2236), (b!"rationals;", 0x211A), (b!"rbarr;", 0x290D), (b!"rbbrk;", 0x2773), (b!"rbrace;", 0x7D),
  (b!"rbrack;", 0x5D), (b!"rbrke;", 0x298C), (b!"rbrksld;", 0x298E), (b!"rbrkslu;", 0x2990), (b!"rcaron;", 0x159), (b!"rcedil;", 0x157),
  (b!"rceil;", 0x2309), (b!"rcub;", 0x7D), (b!"rcy;", 0x440), (b!"rdca;", 0x2937), (b!"rdldhar;", 0x2969), (b!"rdquo;", 0x201D),
  (b!"rdquor;", 0x201D), (b!"rdsh;", 0x21B3), (b!"real;", 0x211C), (b!"realine;", 0x211B), (b!"realpart;", 0x211C), (b!"reals;", 0x211D),
  (b!"rect;", 0x25AD), (b!"reg", 0xAE), (b!"reg;", 0xAE), (b!"rfisht;", 0x297D), (b!"rfloor;", 0x230B), (b!"rfr;", 0x1D52F),
  (b!"rhard;", 0x21C1), (b!"rharu;", 0x21C0), (b!"rharul;", 0x296C), (b!"rho;", 0x3C1), (b!"rhov;", 0x3F1), (b!"rightarrow;", 0x2192),
  (b!"rightarrowtail;", 0x21A3), (b!"rightharpoondown;", 0x21C1), (b!"rightharpoonup;", 0x21C0), (b!"rightleftarrows;", 0x21C4),
  (b!"rightleftharpoons;", 0x21CC), (b!"rightrightarrows;", 0x21C9), (b!"rightsquigarrow;", 0x219D), (b!"rightthreetimes;", 0x22CC),
  (b!"ring;", 0x2DA), (b!"risingdotseq;", 0x2253), (b!"rlarr;", 0x21C4), (b!"rlhar;", 0x21CC)]

/-- `html/entity.go`, `entity`, part 8. -/
def entityPart8 : List (Bytes × Nat) := [
  (b!"rlm;", 0x200F), (b!"rmoust;", 0x23B1), (b!"rmoustache;", 0x23B1), (b!"rnmid;", 0x2AEE), (b!"roang;", 0x27ED), (b!"roarr;", 0x21FE),
  (b!"robrk;", 0x27E7), (b!"ropar;", 0x2986), (b!"ropf;", 0x1D563), (b!"roplus;", 0x2A2E), (b!"rotimes;", 0x2A35), (b!"rpar;", 0x29),
  (b!"rpargt;", 0x2994), (b!"rppolint;", 0x2A12), (b!"rrarr;", 0x21C9), (b!"rsaquo;", 0x203A), (b!"rscr;", 0x1D4C7), (b!"rsh;", 0x21B1),
  (b!"rsqb;", 0x5D), (b!"rsquo;", 0x2019), (b!"rsquor;", 0x2019), (b!"rthree;", 0x22CC), (b!"rtimes;", 0x22CA), (b!"rtri;", 0x25B9),
  (b!"rtrie;", 0x22B5), (b!"rtrif;", 0x25B8), (b!"rtriltri;", 0x29CE), (b!"ruluhar;", 0x2968), (b!"rx;", 0x211E), (b!"sacute;", 0x15B),
  (b!"sbquo;", 0x201A), (b!"sc;", 0x227B), (b!"scE;", 0x2AB4), (b!"scap;", 0x2AB8), (b!"scaron;", 0x161), (b!"sccue;", 0x227D),
  (b!"sce;", 0x2AB0), (b!"scedil;", 0x15F), (b!"scirc;", 0x15D), (b!"scnE;", 0x2AB6), (b!"scnap;", 0x2ABA), (b!"scnsim;", 0x22E9),
  (b!"scpolint;", 0x2A13), (b!"scsim;", 0x227F), (b!"scy;", 0x441), (b!"sdot;", 0x22C5), (b!"sdotb;", 0x22A1), (b!"sdote;", 0x2A66),
  (b!"seArr;", 0x21D8), (b!"searhk;", 0x2925), (b!"searr;", 0x2198), (b!"searrow;", 0x2198), (b!"sect", 0xA7), (b!"sect;", 0xA7),
  (b!"semi;", 0x3B), (b!"seswar;", 0x2929), (b!"setminus;", 0x2216), (b!"setmn;", 0x2216), (b!"sext;", 0x2736), (b!"sfr;", 0x1D530),
  (b!"sfrown;", 0x2322), (b!"sharp;", 0x266F), (b!"shchcy;", 0x449), (b!"shcy;", 0x448), (b!"shortmid;", 0x2223),
  (b!"shortparallel;", 0x2225), (b!"shy", 0xAD), (b!"shy;", 0xAD), (b!"sigma;", 0x3C3), (b!"sigmaf;", 0x3C2), (b!"sigmav;", 0x3C2),
  (b!"sim;", 0x223C), (b!"simdot;", 0x2A6A), (b!"sime;", 0x2243), (b!"simeq;", 0x2243), (b!"simg;", 0x2A9E), (b!"simgE;", 0x2AA0),
  (b!"siml;", 0x2A9D), (b!"simlE;", 0x2A9F), (b!"simne;", 0x2246), (b!"simplus;", 0x2A24), (b!"simrarr;", 0x2972), (b!"slarr;", 0x2190),
  (b!"smallsetminus;", 0x2216), (b!"smashp;", 0x2A33), (b!"smeparsl;", 0x29E4), (b!"smid;", 0x2223), (b!"smile;", 0x2323),
  (b!"smt;", 0x2AAA), (b!"smte;", 0x2AAC), (b!"softcy;", 0x44C), (b!"sol;", 0x2F), (b!"solb;", 0x29C4), (b!"solbar;", 0x233F),
  (b!"sopf;", 0x1D564), (b!"spades;", 0x2660), (b!"spadesuit;", 0x2660), (b!"spar;", 0x2225), (b!"sqcap;", 0x2293), (b!"sqcup;", 0x2294),
  (b!"sqsub;", 0x228F), (b!"sqsube;", 0x2291), (b!"sqsubset;", 0x228F), (b!"sqsubseteq;", 0x2291), (b!"sqsup;", 0x2290),
  (b!"sqsupe;", 0x2292), (b!"sqsupset;", 0x2290), (b!"sqsupseteq;", 0x2292), (b!"squ;", 0x25A1), (b!"square;", 0x25A1),
  (b!"squarf;", 0x25AA), (b!"squf;", 0x25AA), (b!"srarr;", 0x2192), (b!"sscr;", 0x1D4C8), (b!"ssetmn;", 0x2216), (b!"ssmile;", 0x2323),
  (b!"sstarf;", 0x22C6), (b!"star;", 0x2606), (b!"starf;", 0x2605), (b!"straightepsilon;", 0x3F5), (b!"straightphi;", 0x3D5),
  (b!"strns;", 0xAF), (b!"sub;", 0x2282), (b!"subE;", 0x2AC5), (b!"subdot;", 0x2ABD), (b!"sube;", 0x2286), (b!"subedot;", 0x2AC3),
  (b!"submult;", 0x2AC1), (b!"subnE;", 0x2ACB), (b!"subne;", 0x228A), (b!"subplus;", 0x2ABF), (b!"subrarr;", 0x2979),
  (b!"subset;", 0x2282), (b!"subseteq;", 0x2286), (b!"subseteqq;", 0x2AC5), (b!"subsetneq;", 0x228A), (b!"subsetneqq;", 0x2ACB),
  (b!"subsim;", 0x2AC7), (b!"subsub;", 0x2AD5), (b!"subsup;", 0x2AD3), (b!"succ;", 0x227B), (b!"succapprox;", 0x2AB8),
  (b!"succcurlyeq;", 0x227D), (b!"succeq;", 0x2AB0), (b!"succnapprox;", 0x2ABA), (b!"succneqq;", 0x2AB6), (b!"succnsim;", 0x22E9),
  (b!"succsim;", 0x227F), (b!"sum;", 0x2211), (b!"sung;", 0x266A), (b!"sup1", 0xB9), (b!"sup1;", 0xB9), (b!"sup2", 0xB2),
  (b!"sup2;", 0xB2), (b!"sup3", 0xB3), (b!"sup3;", 0xB3), (b!"sup;", 0x2283), (b!"supE;", 0x2AC6), (b!"supdot;", 0x2ABE),
  (b!"supdsub;", 0x2AD8), (b!"supe;", 0x2287), (b!"supedot;", 0x2AC4), (b!"suphsol;", 0x27C9), (b!"suphsub;", 0x2AD7),
  (b!"suplarr;", 0x297B), (b!"supmult;", 0x2AC2), (b!"supnE;", 0x2ACC), (b!"supne;", 0x228B), (b!"supplus;", 0x2AC0),
  (b!"supset;", 0x2283), (b!"supseteq;", 0x2287), (b!"supseteqq;", 0x2AC6), (b!"supsetneq;", 0x228B), (b!"supsetneqq;", 0x2ACC),
  (b!"supsim;", 0x2AC8), (b!"supsub;", 0x2AD4), (b!"supsup;", 0x2AD6), (b!"swArr;", 0x21D9), (b!"swarhk;", 0x2926), (b!"swarr;", 0x2199),
  (b!"swarrow;", 0x2199), (b!"swnwar;", 0x292A), (b!"szlig", 0xDF), (b!"szlig;", 0xDF), (b!"target;", 0x2316), (b!"tau;", 0x3C4),
  (b!"tbrk;", 0x23B4), (b!"tcaron;", 0x165), (b!"tcedil;", 0x163), (b!"tcy;", 0x442), (b!"tdot;", 0x20DB), (b!"telrec;", 0x2315),
  (b!"tfr;", 0x1D531), (b!"there4;", 0x2234), (b!"therefore;", 0x2234), (b!"theta;", 0x3B8), (b!"thetasym;", 0x3D1), (b!"thetav;", 0x3D1),
  (b!"thickapprox;", 0x2248), (b!"thicksim;", 0x223C), (b!"thinsp;", 0x2009), (b!"thkap;", 0x2248), (b!"thksim;", 0x223C),
  (b!"thorn", 0xFE), (b!"thorn;", 0xFE), (b!"tilde;", 0x2DC), (b!"times", 0xD7), (b!"times;", 0xD7), (b!"timesb;", 0x22A0),
  (b!"timesbar;", 0x2A31), (b!"timesd;", 0x2A30), (b!"tint;", 0x222D), (b!"toea;", 0x2928), (b!"top;", 0x22A4), (b!"topbot;", 0x2336),
  (b!"topcir;", 0x2AF1), (b!"topf;", 0x1D565), (b!"topfork;", 0x2ADA), (b!"tosa;", 0x2929), (b!"tprime;", 0x2034), (b!"trade;", 0x2122),
  (b!"triangle;", 0x25B5), (b!"triangledown;", 0x25BF), (b!"triangleleft;", 0x25C3), (b!"trianglelefteq;", 0x22B4),
  (b!"triangleq;", 0x225C), (b!"triangleright;", 0x25B9), (b!"trianglerighteq;", 0x22B5), (b!"tridot;", 0x25EC), (b!"trie;", 0x225C),
  (b!"triminus;", 0x2A3A), (b!"triplus;", 0x2A39), (b!"trisb;", 0x29CD), (b!"tritime;", 0x2A3B), (b!"trpezium;", 0x23E2),
  (b!"tscr;", 0x1D4C9), (b!"tscy;", 0x446), (b!"tshcy;", 0x45B), (b!"tstrok;", 0x167), (b!"twixt;", 0x226C),
  (b!"twoheadleftarrow;", 0x219E), (b!"twoheadrightarrow;", 0x21A0), (b!"uArr;", 0x21D1), (b!"uHar;", 0x2963), (b!"uacute", 0xFA),
  (b!"uacute;", 0xFA), (b!"uarr;", 0x2191), (b!"ubrcy;", 0x45E), (b!"ubreve;", 0x16D), (b!"ucirc", 0xFB)]

/-- `html/entity.go`, `entity`, part 9. -/
def entityPart9 : List (Bytes × Nat) := [
  (b!"ucirc;", 0xFB), (b!"ucy;", 0x443), (b!"udarr;", 0x21C5), (b!"udblac;", 0x171), (b!"udhar;", 0x296E), (b!"ufisht;", 0x297E),
  (b!"ufr;", 0x1D532), (b!"ugrave", 0xF9), (b!"ugrave;", 0xF9), (b!"uharl;", 0x21BF), (b!"uharr;", 0x21BE), (b!"uhblk;", 0x2580),
  (b!"ulcorn;", 0x231C), (b!"ulcorner;", 0x231C), (b!"ulcrop;", 0x230F), (b!"ultri;", 0x25F8), (b!"umacr;", 0x16B), (b!"uml", 0xA8),
  (b!"uml;", 0xA8), (b!"uogon;", 0x173), (b!"uopf;", 0x1D566), (b!"uparrow;", 0x2191), (b!"updownarrow;", 0x2195),
  (b!"upharpoonleft;", 0x21BF), (b!"upharpoonright;", 0x21BE), (b!"uplus;", 0x228E), (b!"upsi;", 0x3C5), (b!"upsih;", 0x3D2),
  (b!"upsilon;", 0x3C5), (b!"upuparrows;", 0x21C8), (b!"urcorn;", 0x231D), (b!"urcorner;", 0x231D), (b!"urcrop;", 0x230E),
  (b!"uring;", 0x16F), (b!"urtri;", 0x25F9), (b!"uscr;", 0x1D4CA), (b!"utdot;", 0x22F0), (b!"utilde;", 0x169), (b!"utri;", 0x25B5),
  (b!"utrif;", 0x25B4), (b!"uuarr;", 0x21C8), (b!"uuml", 0xFC), (b!"uuml;", 0xFC), (b!"uwangle;", 0x29A7), (b!"vArr;", 0x21D5),
  (b!"vBar;", 0x2AE8), (b!"vBarv;", 0x2AE9), (b!"vDash;", 0x22A8), (b!"vangrt;", 0x299C), (b!"varepsilon;", 0x3F5), (b!"varkappa;", 0x3F0),
  (b!"varnothing;", 0x2205), (b!"varphi;", 0x3D5), (b!"varpi;", 0x3D6), (b!"varpropto;", 0x221D), (b!"varr;", 0x2195),
  (b!"varrho;", 0x3F1), (b!"varsigma;", 0x3C2), (b!"vartheta;", 0x3D1), (b!"vartriangleleft;", 0x22B2), (b!"vartriangleright;", 0x22B3),
  (b!"vcy;", 0x432), (b!"vdash;", 0x22A2), (b!"vee;", 0x2228), (b!"veebar;", 0x22BB), (b!"veeeq;", 0x225A), (b!"vellip;", 0x22EE),
  (b!"verbar;", 0x7C), (b!"vert;", 0x7C), (b!"vfr;", 0x1D533), (b!"vltri;", 0x22B2), (b!"vopf;", 0x1D567), (b!"vprop;", 0x221D),
  (b!"vrtri;", 0x22B3), (b!"vscr;", 0x1D4CB), (b!"vzigzag;", 0x299A), (b!"wcirc;", 0x175), (b!"wedbar;", 0x2A5F), (b!"wedge;", 0x2227),
  (b!"wedgeq;", 0x2259), (b!"weierp;", 0x2118), (b!"wfr;", 0x1D534), (b!"wopf;", 0x1D568), (b!"wp;", 0x2118), (b!"wr;", 0x2240),
  (b!"wreath;", 0x2240), (b!"wscr;", 0x1D4CC), (b!"xcap;", 0x22C2), (b!"xcirc;", 0x25EF), (b!"xcup;", 0x22C3), (b!"xdtri;", 0x25BD),
  (b!"xfr;", 0x1D535), (b!"xhArr;", 0x27FA), (b!"xharr;", 0x27F7), (b!"xi;", 0x3BE), (b!"xlArr;", 0x27F8), (b!"xlarr;", 0x27F5),
  (b!"xmap;", 0x27FC), (b!"xnis;", 0x22FB), (b!"xodot;", 0x2A00), (b!"xopf;", 0x1D569), (b!"xoplus;", 0x2A01), (b!"xotime;", 0x2A02),
  (b!"xrArr;", 0x27F9), (b!"xrarr;", 0x27F6), (b!"xscr;", 0x1D4CD), (b!"xsqcup;", 0x2A06), (b!"xuplus;", 0x2A04), (b!"xutri;", 0x25B3),
  (b!"xvee;", 0x22C1), (b!"xwedge;", 0x22C0), (b!"yacute", 0xFD), (b!"yacute;", 0xFD), (b!"yacy;", 0x44F), (b!"ycirc;", 0x177),
  (b!"ycy;", 0x44B), (b!"yen", 0xA5), (b!"yen;", 0xA5), (b!"yfr;", 0x1D536), (b!"yicy;", 0x457), (b!"yopf;", 0x1D56A),
  (b!"yscr;", 0x1D4CE), (b!"yucy;", 0x44E), (b!"yuml", 0xFF), (b!"yuml;", 0xFF), (b!"zacute;", 0x17A), (b!"zcaron;", 0x17E),
  (b!"zcy;", 0x437), (b!"zdot;", 0x17C), (b!"zeetrf;", 0x2128), (b!"zeta;", 0x3B6), (b!"zfr;", 0x1D537), (b!"zhcy;", 0x436),
  (b!"zigrarr;", 0x21DD), (b!"zopf;", 0x1D56B), (b!"zscr;", 0x1D4CF), (b!"zwj;", 0x200D), (b!"zwnj;", 0x200C)]

/-- `html/entity.go`, `entity`: names with one rune. -/
def entityTable : List (Bytes × Nat) :=
  entityPart1 ++ entityPart2 ++ entityPart3 ++ entityPart4 ++ entityPart5 ++ entityPart6 ++ entityPart7 ++ entityPart8 ++ entityPart9

/-- `html/entity.go`, `entity2`: names with two runes. -/
def entityPairs : List (Bytes × Nat × Nat) := [
  (b!"NotEqualTilde;", 0x2242, 0x338), (b!"NotGreaterFullEqual;", 0x2267, 0x338), (b!"NotGreaterGreater;", 0x226B, 0x338),
  (b!"NotGreaterSlantEqual;", 0x2A7E, 0x338), (b!"NotHumpDownHump;", 0x224E, 0x338), (b!"NotHumpEqual;", 0x224F, 0x338),
  (b!"NotLeftTriangleBar;", 0x29CF, 0x338), (b!"NotLessLess;", 0x226A, 0x338), (b!"NotLessSlantEqual;", 0x2A7D, 0x338),
  (b!"NotNestedGreaterGreater;", 0x2AA2, 0x338), (b!"NotNestedLessLess;", 0x2AA1, 0x338), (b!"NotPrecedesEqual;", 0x2AAF, 0x338),
  (b!"NotRightTriangleBar;", 0x29D0, 0x338), (b!"NotSquareSubset;", 0x228F, 0x338), (b!"NotSquareSuperset;", 0x2290, 0x338),
  (b!"NotSubset;", 0x2282, 0x20D2), (b!"NotSucceedsEqual;", 0x2AB0, 0x338), (b!"NotSucceedsTilde;", 0x227F, 0x338),
  (b!"NotSuperset;", 0x2283, 0x20D2), (b!"ThickSpace;", 0x205F, 0x200A), (b!"acE;", 0x223E, 0x333), (b!"bne;", 0x3D, 0x20E5),
  (b!"bnequiv;", 0x2261, 0x20E5), (b!"caps;", 0x2229, 0xFE00), (b!"cups;", 0x222A, 0xFE00), (b!"fjlig;", 0x66, 0x6A),
  (b!"gesl;", 0x22DB, 0xFE00), (b!"gvertneqq;", 0x2269, 0xFE00), (b!"gvnE;", 0x2269, 0xFE00), (b!"lates;", 0x2AAD, 0xFE00),
  (b!"lesg;", 0x22DA, 0xFE00), (b!"lvertneqq;", 0x2268, 0xFE00), (b!"lvnE;", 0x2268, 0xFE00), (b!"nGg;", 0x22D9, 0x338),
  (b!"nGtv;", 0x226B, 0x338), (b!"nLl;", 0x22D8, 0x338), (b!"nLtv;", 0x226A, 0x338), (b!"nang;", 0x2220, 0x20D2),
  (b!"napE;", 0x2A70, 0x338), (b!"napid;", 0x224B, 0x338), (b!"nbump;", 0x224E, 0x338), (b!"nbumpe;", 0x224F, 0x338),
  (b!"ncongdot;", 0x2A6D, 0x338), (b!"nedot;", 0x2250, 0x338), (b!"nesim;", 0x2242, 0x338), (b!"ngE;", 0x2267, 0x338),
  (b!"ngeqq;", 0x2267, 0x338), (b!"ngeqslant;", 0x2A7E, 0x338), (b!"nges;", 0x2A7E, 0x338), (b!"nlE;", 0x2266, 0x338),
  (b!"nleqq;", 0x2266, 0x338), (b!"nleqslant;", 0x2A7D, 0x338), (b!"nles;", 0x2A7D, 0x338), (b!"notinE;", 0x22F9, 0x338),
  (b!"notindot;", 0x22F5, 0x338), (b!"nparsl;", 0x2AFD, 0x20E5), (b!"npart;", 0x2202, 0x338), (b!"npre;", 0x2AAF, 0x338),
  (b!"npreceq;", 0x2AAF, 0x338), (b!"nrarrc;", 0x2933, 0x338), (b!"nrarrw;", 0x219D, 0x338), (b!"nsce;", 0x2AB0, 0x338),
  (b!"nsubE;", 0x2AC5, 0x338), (b!"nsubset;", 0x2282, 0x20D2), (b!"nsubseteqq;", 0x2AC5, 0x338), (b!"nsucceq;", 0x2AB0, 0x338),
  (b!"nsupE;", 0x2AC6, 0x338), (b!"nsupset;", 0x2283, 0x20D2), (b!"nsupseteqq;", 0x2AC6, 0x338), (b!"nvap;", 0x224D, 0x20D2),
  (b!"nvge;", 0x2265, 0x20D2), (b!"nvgt;", 0x3E, 0x20D2), (b!"nvle;", 0x2264, 0x20D2), (b!"nvlt;", 0x3C, 0x20D2),
  (b!"nvltrie;", 0x22B4, 0x20D2), (b!"nvrtrie;", 0x22B5, 0x20D2), (b!"nvsim;", 0x223C, 0x20D2), (b!"race;", 0x223D, 0x331),
  (b!"smtes;", 0x2AAC, 0xFE00), (b!"sqcaps;", 0x2293, 0xFE00), (b!"sqcups;", 0x2294, 0xFE00), (b!"varsubsetneq;", 0x228A, 0xFE00),
  (b!"varsubsetneqq;", 0x2ACB, 0xFE00), (b!"varsupsetneq;", 0x228B, 0xFE00), (b!"varsupsetneqq;", 0x2ACC, 0xFE00),
  (b!"vnsub;", 0x2282, 0x20D2), (b!"vnsup;", 0x2283, 0x20D2), (b!"vsubnE;", 0x2ACB, 0xFE00), (b!"vsubne;", 0x228A, 0xFE00),
  (b!"vsupnE;", 0x2ACC, 0xFE00), (b!"vsupne;", 0x228B, 0xFE00)]

/-- The tables of package `html`. -/
@[instance_reducible] def html5Entities : HtmlEntities where
  entity n := (entityTable.lookup n).map utf8
  entity2 n := (entityPairs.lookup n).map fun x => utf8 x.1 ++ utf8 x.2
  amp := by decide +kernel
  lt := by decide +kernel
  gt := by decide +kernel

/-- No name of one rune takes fewer bytes, with its `&`, than the rune. -/
theorem entityTable_narrow : ∀ e ∈ entityTable, (utf8 e.2).length ≤ e.1.length + 1 := by decide +kernel

theorem entityPairs_narrow : ∀ e ∈ entityPairs, (utf8 e.2.1 ++ utf8 e.2.2).length ≤ e.1.length + 1 := by decide +kernel

/-- A number for the order of names. -/
def nameKey (n : Bytes) : Nat := (n.foldl (fun k b => 256 * k + b.toNat) 0) * 256 ^ (40 - n.length)

/-- Each number is smaller than the next. -/
def increasing : List Nat → Bool
  | a :: b :: l => decide (a < b) && increasing (b :: l)
  | _ => true

theorem increasing_lt {a : Nat} {l : List Nat} (h : increasing (a :: l) = true) : ∀ x ∈ l, a < x := by
  induction l generalizing a with
  | nil => simp
  | cons b l ih =>
    simp only [increasing, Bool.and_eq_true, decide_eq_true_eq] at h
    intro x hx
    rcases List.mem_cons.1 hx with rfl | hx
    · exact h.1
    · exact Nat.lt_trans h.1 (ih h.2 x hx)

theorem increasing_tail {a : Nat} {l : List Nat} (h : increasing (a :: l) = true) : increasing l = true := by
  cases l with
  | nil => rfl
  | cons b l => simp only [increasing, Bool.and_eq_true] at h; exact h.2

/-- In a table in the order of names, every entry is found. -/
theorem lookup_of_mem {α : Type} {l : List (Bytes × α)} (h : increasing (l.map fun e => nameKey e.1) = true) {e : Bytes × α} (he : e ∈ l) :
    l.lookup e.1 = some e.2 := by
  induction l with
  | nil => simp at he
  | cons d l ih =>
    rw [List.map_cons] at h
    rcases List.mem_cons.1 he with rfl | hm
    · obtain ⟨k, v⟩ := e; simp
    · have hlt := increasing_lt h (nameKey e.1) (List.mem_map.2 ⟨e, hm, rfl⟩)
      obtain ⟨k, v⟩ := d
      have hne : (e.1 == k) = false := by
        rw [beq_eq_false_iff_ne]; rintro rfl; exact Nat.lt_irrefl _ hlt
      rw [List.lookup_cons, hne]
      exact ih (increasing_tail h) hm

/-- Two lists of numbers, each in order, have no number in common. -/
def disjoint : Nat → List Nat → List Nat → Bool
  | _, [], _ => true
  | _, _, [] => true
  | 0, _, _ => false
  | f + 1, a :: as, b :: bs => if a < b then disjoint f as (b :: bs) else if b < a then disjoint f (a :: as) bs else false

theorem disjoint_sound (f : Nat) (as bs : List Nat) (ha : increasing as = true) (hb : increasing bs = true) (h : disjoint f as bs = true) :
    ∀ x ∈ as, x ∉ bs := by
  induction f generalizing as bs with
  | zero => cases as <;> cases bs <;> simp_all [disjoint]
  | succ f ih =>
    cases as with
    | nil => simp
    | cons a as =>
      cases bs with
      | nil => simp
      | cons b bs =>
        simp only [disjoint] at h
        intro x hx hx'
        split at h
        · next hab =>
          rcases List.mem_cons.1 hx with rfl | hx
          · rcases List.mem_cons.1 hx' with rfl | hx'
            · omega
            · have := increasing_lt hb x hx'; omega
          · exact ih as (b :: bs) (increasing_tail ha) hb h x hx hx'
        · split at h
          · next hba =>
            rcases List.mem_cons.1 hx' with rfl | hx'
            · rcases List.mem_cons.1 hx with rfl | hx
              · omega
              · have := increasing_lt ha x hx; omega
            · exact ih (a :: as) bs ha (increasing_tail hb) h x hx hx'
          · simp at h

theorem entityTable_sorted : increasing (entityTable.map fun e => nameKey e.1) = true := by decide +kernel

theorem entityPairs_sorted : increasing (entityPairs.map fun e => nameKey e.1) = true := by decide +kernel

theorem tables_disjoint : disjoint 3000 (entityTable.map fun e => nameKey e.1) (entityPairs.map fun e => nameKey e.1) = true := by decide +kernel

end Verif.Go
