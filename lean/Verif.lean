import Verif.Base.Num
import Verif.Base.Online
import Verif.Base.Real
import Verif.Base.Round
import Verif.Base.RoundP
import Verif.Base.Series
import Verif.Lemmas.AdxTake
import Verif.Lemmas.Bars
import Verif.Lemmas.Bound
import Verif.Lemmas.Defs
import Verif.Lemmas.Error
import Verif.Lemmas.Ewm
import Verif.Lemmas.Fade
import Verif.Lemmas.Fam
import Verif.Lemmas.Fill
import Verif.Lemmas.Live
import Verif.Lemmas.Look
import Verif.Lemmas.Mirror
import Verif.Lemmas.MirrorInd
import Verif.Lemmas.NaN
import Verif.Lemmas.Near
import Verif.Lemmas.NewEq
import Verif.Lemmas.Online
import Verif.Lemmas.Psar
import Verif.Lemmas.Rel
import Verif.Lemmas.RelInd
import Verif.Lemmas.RelReal
import Verif.Lemmas.Round
import Verif.Lemmas.Shape
import Verif.Lemmas.Tail
import Verif.Lemmas.Take
import Verif.Lemmas.Toy
import Verif.Lemmas.Val
import Verif.Lemmas.ValFin
import Verif.Lemmas.Win
import Verif.Lemmas.Wrap
import Verif.Model.Adx
import Verif.Model.Call
import Verif.Model.Catalogue
import Verif.Model.Dropna
import Verif.Model.Dtype
import Verif.Model.FloatIndex
import Verif.Model.Functions
import Verif.Model.Labels
import Verif.Model.Momentum
import Verif.Model.Names
import Verif.Model.Negative
import Verif.Model.NumpySum
import Verif.Model.Objects
import Verif.Model.Others
import Verif.Model.Psar
import Verif.Model.Trend
import Verif.Model.Utils
import Verif.Model.Volatility
import Verif.Model.Volume
import Verif.Model.Wrapper
import Verif.Props.C01
import Verif.Props.C02
import Verif.Props.C02Adx
import Verif.Props.C03
import Verif.Props.C04
import Verif.Props.C05
import Verif.Props.C09
import Verif.Props.C100
import Verif.Props.C101
import Verif.Props.C102
import Verif.Props.C103
import Verif.Props.C104
import Verif.Props.C105
import Verif.Props.C106
import Verif.Props.C107
import Verif.Props.C108
import Verif.Props.C109
import Verif.Props.C110
import Verif.Props.C111
import Verif.Props.C112
import Verif.Props.C113
import Verif.Props.C114
import Verif.Props.C115
import Verif.Props.C116
import Verif.Props.C117
import Verif.Props.C118
import Verif.Props.C119
import Verif.Props.C12
import Verif.Props.C120
import Verif.Props.C121
import Verif.Props.C122
import Verif.Props.C123
import Verif.Props.C124
import Verif.Props.C125
import Verif.Props.C126
import Verif.Props.C127
import Verif.Props.C128
import Verif.Props.C129
import Verif.Props.C13
import Verif.Props.C130
import Verif.Props.C131
import Verif.Props.C132
import Verif.Props.C133
import Verif.Props.C134
import Verif.Props.C135
import Verif.Props.C136
import Verif.Props.C137
import Verif.Props.C138
import Verif.Props.C16
import Verif.Props.C17
import Verif.Props.C18
import Verif.Props.C19
import Verif.Props.C20
import Verif.Props.C21
import Verif.Props.C23
import Verif.Props.C25
import Verif.Props.C27
import Verif.Props.C30
import Verif.Props.C31
import Verif.Props.C32
import Verif.Props.C34
import Verif.Props.C40
import Verif.Props.C41
import Verif.Props.C42
import Verif.Props.C45
import Verif.Props.C49
import Verif.Props.C51
import Verif.Props.C52
import Verif.Props.C57
import Verif.Props.C58
import Verif.Props.C59
import Verif.Props.C61
import Verif.Props.C66
import Verif.Props.C67
import Verif.Props.C68
import Verif.Props.C69
import Verif.Props.C70
import Verif.Props.C72
import Verif.Props.C73
import Verif.Props.C74
import Verif.Props.C75
import Verif.Props.C76
import Verif.Props.C77
import Verif.Props.C78
import Verif.Props.C79
import Verif.Props.C80
import Verif.Props.C81
import Verif.Props.C82
import Verif.Props.C83
import Verif.Props.C84
import Verif.Props.C85
import Verif.Props.C86
import Verif.Props.C87
import Verif.Props.C88
import Verif.Props.C89
import Verif.Props.C90
import Verif.Props.C91
import Verif.Props.C92
import Verif.Props.C93
import Verif.Props.C94
import Verif.Props.C95
import Verif.Props.C96
import Verif.Props.C97
import Verif.Props.C98
import Verif.Props.C99
import Verif.Spec.Causal
import Verif.Spec.Data
import Verif.Spec.Features
import Verif.Spec.Live
import Verif.Spec.Memory
import Verif.Validate
